import Verif.Props.CalcTicks
import Verif.Props.MainLoop

/-!
The hypotheses of C133 can be met: a run of the main program with `float` arithmetic in which Z approaches its switch, finds it closed
and stops. As the kernel cannot compute with the motion controller of this machine, the run is computed with another one
(`loopKit`); while the motion controller makes no calculations, the rest of the program does not depend on it (`Same`).
-/

namespace Moovr

namespace Board
open Homer MotionSpec HomingSpec EventQueueSpec LoopSpec

variable {K K' : MotionKit}

/-- Two boards that differ only in their motion controllers. -/
inductive Same : Board K → Board K' → Prop
  | mk i m q c c' h cl a : Same ⟨i, m, q, c, h, cl, a⟩ ⟨i, m, q, c', h, cl, a⟩

theorem Same.push {b : Board K} {b' : Board K'} (h : Same b b') (e : Event) : Same (b.push e) (b'.push e) := by
  cases h; exact .mk ..

theorem Same.onQueue {b : Board K} {b' : Board K'} (h : Same b b') (c : EventQueueSpec.Call) : Same (b.onQueue c) (b'.onQueue c) := by
  cases h; exact .mk ..

theorem Same.sampleInput {b : Board K} {b' : Board K'} (h : Same b b') (i : Nat) : Same (b.sampleInput i) (b'.sampleInput i) := by
  cases h
  unfold Board.sampleInput
  simp only
  split
  · exact .mk ..
  · exact .mk ..

theorem Same.sample {b : Board K} {b' : Board K'} (h : Same b b') (p : Ports) : Same (b.sample p) (b'.sample p) := by
  unfold Board.sample
  have : ∀ (l : List Nat) (b : Board K) (b' : Board K'), Same b b' → Same (l.foldl Board.sampleInput b) (l.foldl Board.sampleInput b') := by
    intro l
    induction l with
    | nil => exact fun _ _ h => h
    | cons i l ih => exact fun _ _ h => ih _ _ (h.sampleInput i)
  refine this _ _ _ ?_
  cases h; exact .mk ..

theorem withCtrl_none (b : Board K) {c : MotionCtrl K} (h : c.events = b.ctrl.events) : b.withCtrl c = { b with ctrl := c } := by
  unfold withCtrl; rw [h]; simp

theorem withCtrl_one (b : Board K) {c : MotionCtrl K} {e : Event} (h : c.events = b.ctrl.events ++ [e]) :
    b.withCtrl c = ({ b with ctrl := c } : Board K).push e := by
  unfold withCtrl; rw [h]; simp

theorem Same.ctrl {b : Board K} {b' : Board K'} (h : Same b b') (c : MotionCtrl K) (c' : MotionCtrl K') :
    Same ({ b with ctrl := c } : Board K) ({ b' with ctrl := c' } : Board K') := by
  cases h; exact .mk ..

theorem stop_events (c : MotionCtrl K) : c.stop.events = c.events ++ [.stopRequested] := (MotionCtrl.sameButProf_optimize _).events

theorem stop_position (c : MotionCtrl K) : c.stop.machinePosition = c.machinePosition := (MotionCtrl.sameButProf_optimize _).pos

/-- The three commands of a move. -/
theorem Same.order {b : Board K} {b' : Board K'} (h : Same b b') (t : Target K) (t' : Target K') (m : HomingMove)
    (hs : b.ctrl.state = .stopped) (hs' : b'.ctrl.state = .stopped) :
    Same ([HomingAct.flush, .append m, .go].foldl (exec t) b) ([HomingAct.flush, .append m, .go].foldl (exec t') b') := by
  have key : ∀ {K : MotionKit} (t : Target K) (b : Board K), b.ctrl.state = .stopped →
      ∃ c, [HomingAct.flush, .append m, .go].foldl (exec t) b = ({ b with ctrl := c } : Board K).push .motionStarted := by
    intro K t b hs
    simp only [List.foldl_cons, List.foldl_nil, exec]
    have c1 : b.ctrl.flushMotionBuffer = { b.ctrl with time := b.ctrl.time.reinit, buffer := b.ctrl.buffer.flush } := by
      rw [MotionCtrl.flushMotionBuffer, if_pos (by simp [MotionCtrl.isRunning, hs])]
    rw [withCtrl_none b (c := b.ctrl.flushMotionBuffer) (by rw [c1])]
    have l2 : (b.ctrl.flushMotionBuffer.append (t.request m)).buffer.level = 1 ∧
        (b.ctrl.flushMotionBuffer.append (t.request m)).events = b.ctrl.events := by
      rw [c1]; exact ⟨rfl, rfl⟩
    rw [withCtrl_none _ (c := b.ctrl.flushMotionBuffer.append (t.request m)) (by rw [l2.2, c1])]
    have c3 : (b.ctrl.flushMotionBuffer.append (t.request m)).start.events = b.ctrl.events ++ [.motionStarted] := by
      unfold MotionCtrl.start
      rw [if_pos (by simp [MotionBuffer.isEmpty, l2.1]), (MotionCtrl.sameButProf_optimize _).events]
      show (b.ctrl.flushMotionBuffer.append (t.request m)).events ++ _ = _
      rw [l2.2]
    exact ⟨_, withCtrl_one _ (by rw [c3, l2.2])⟩
  obtain ⟨c, e⟩ := key t b hs
  obtain ⟨c', e'⟩ := key t' b' hs'
  rw [e, e']
  exact (h.ctrl c c').push _

theorem Same.beforeHoming (t : Target K) (t' : Target K') (hc : t.cfg = t'.cfg) (p : Ports) :
    Same (beforeHoming t p) (beforeHoming t' p) := by
  obtain ⟨cfg, f, x, w⟩ := t
  obtain ⟨cfg', f', x', w'⟩ := t'
  simp only at hc
  subst hc
  exact .mk ..

theorem Same.setup (t : Target K) (t' : Target K') (hc : t.cfg = t'.cfg) (p : Ports) : Same (setup t p) (setup t' p) := by
  have hb := Same.beforeHoming t t' hc p
  have env : ∀ {K : MotionKit} (t : Target K), (Board.beforeHoming t p).ctrl.state = .stopped ∧
      (Board.beforeHoming t p).env = ⟨fun i => ((Board.beforeHoming t p).myInputs i).isClosed, false, fun _ => 0⟩ := by
    intro K t
    obtain ⟨c1, -⟩ := beforeHoming_spec t p
    have hs : (Board.beforeHoming t p).ctrl.state = .stopped := by rw [c1]; rfl
    refine ⟨hs, ?_⟩
    have hp : (Board.beforeHoming t p).ctrl.machinePosition = fun _ => 0 := by
      rw [c1]; funext i
      simp only [MotionCtrl.resetMachinePosition]
      split <;> rfl
    unfold Board.env
    rw [hp]
    simp [MotionCtrl.isRunning, hs]
  rw [setup_eq, setup_eq, (env t).2, (env t').2, ← hc]
  have s := (env t).1
  have s' := (env t').1
  generalize Board.beforeHoming t p = b at *
  generalize Board.beforeHoming t' p = b' at *
  have e1 : b.myInputs = b'.myInputs := by cases hb; rfl
  have e2 : b.homer = b'.homer := by cases hb; rfl
  rw [e1, e2]
  have hcase := start_cases t.cfg ⟨fun i => (b'.myInputs i).isClosed, false, fun _ => 0⟩ b'.homer rfl
  generalize Homer.start t.cfg ⟨fun i => (b'.myInputs i).isClosed, false, fun _ => 0⟩ b'.homer = r at hcase
  obtain ⟨h, acts⟩ := r
  have h0 : Same ({ b with homer := h, acts := b.acts ++ acts } : Board K) ({ b' with homer := h, acts := b'.acts ++ acts } : Board K') := by
    cases hb; exact .mk ..
  unfold withHomer
  simp only at hcase ⊢
  generalize hg : ({ b with homer := h, acts := b.acts ++ acts } : Board K) = d at h0 ⊢
  generalize hg' : ({ b' with homer := h, acts := b'.acts ++ acts } : Board K') = d' at h0 ⊢
  have sd : d.ctrl.state = .stopped := by rw [← hg]; exact s
  have sd' : d'.ctrl.state = .stopped := by rw [← hg']; exact s'
  rcases hcase with ⟨-, e⟩ | ⟨-, i, c, m, -, e⟩
  · rw [e]
    exact h0.push _
  · rw [e]
    exact (h0.push .homingStarted).order t t' m sd sd'

/-- Homing reacts in the same way, whatever the motion controller does. -/
def quietB (b : Board K) : Bool :=
  decide (b.homer.state = .closing) || (decide (b.homer.state = .closedWaitForStop) && !b.queue.hasEvents) ||
    (decide (b.homer.state = .closedWaitForStop) && decide (b.queue.popEvent.2 ≠ .motionStopped))

theorem react_quiet (cfg : HomingConfig) (h : Homer) (e : Event)
    (hq : h.state = .closing ∨ h.state = .closedWaitForStop ∧ e ≠ .motionStopped) :
    ∃ h', (∀ env, react cfg env h e = (h', [])) ∨ ∀ env, react cfg env h e = (h', [.stop]) := by
  rcases hq with hs | ⟨hs, he⟩
  · by_cases hc : h.limitSwitchClose = e
    · exact ⟨{ h with state := .closedWaitForStop }, .inr fun env => by unfold react; rw [hs]; simp only [if_pos hc]; rfl⟩
    · exact ⟨h, .inl fun env => by unfold react; rw [hs]; simp only [if_neg hc]⟩
  · exact ⟨h, .inl fun env => by unfold react; rw [hs]; simp only [if_neg he]⟩

theorem Same.handle {b : Board K} {b' : Board K'} (h : Same b b') (t : Target K) (t' : Target K') (hc : t.cfg = t'.cfg)
    (hq : quietB b' = true) : Same (b.handle t) (b'.handle t') ∧ (b.handle t).ctrl.machinePosition = b.ctrl.machinePosition ∧
      ∃ new, (b.handle t).acts = b.acts ++ new ∧ ∀ x ∈ new, ∀ m, x ≠ HomingAct.append m := by
  cases h with
  | mk i m q c c' h cl a =>
    simp only [quietB, Bool.or_eq_true, Bool.and_eq_true, decide_eq_true_eq, Bool.not_eq_true'] at hq
    unfold Board.handle
    simp only
    by_cases he : q.hasEvents = true
    · rw [if_pos he, if_pos he]
      have hq' : h.state = .closing ∨ h.state = .closedWaitForStop ∧ q.popEvent.2 ≠ .motionStopped := by
        rcases hq with (hq | ⟨-, hq⟩) | hq
        · exact .inl hq
        · rw [he] at hq; cases hq
        · exact .inr hq
      obtain ⟨h', hr⟩ := react_quiet t.cfg h q.popEvent.2 hq'
      have e1 : ∀ (K : MotionKit) (c : MotionCtrl K),
          ((⟨i, m, q, c, h, cl, a⟩ : Board K).onQueue .hasEvents).queue.popEvent.2 = q.popEvent.2 := fun _ _ => rfl
      rw [e1, e1, ← hc]
      have e2 : ∀ (K : MotionKit) (c : MotionCtrl K),
          (((⟨i, m, q, c, h, cl, a⟩ : Board K).onQueue .hasEvents).onQueue .pop).homer = h := fun _ _ => rfl
      rw [e2, e2]
      have h0 := ((Same.mk (K := K) (K' := K') i m q c c' h cl a).onQueue .hasEvents).onQueue .pop
      generalize hd : ((⟨i, m, q, c, h, cl, a⟩ : Board K).onQueue .hasEvents).onQueue .pop = d at h0 ⊢
      generalize hd' : ((⟨i, m, q, c', h, cl, a⟩ : Board K').onQueue .hasEvents).onQueue .pop = d' at h0 ⊢
      have da : d.acts = a := by rw [← hd]; rfl
      have dc : d.ctrl = c := by rw [← hd]; rfl
      unfold handleEvents withHomer
      rcases hr with hr | hr
      · rw [hr, hr]
        refine ⟨?_, congrArg MotionCtrl.machinePosition dc, [.handled q.popEvent.2], ?_, by simp⟩
        · show Same ({ d with homer := h', acts := _ } : Board K) ({ d' with homer := h', acts := _ } : Board K')
          cases h0; exact .mk ..
        · show d.acts ++ _ = _
          rw [da]
      · rw [hr, hr]
        have hx : Same ({ d with homer := h', acts := d.acts ++ [.handled q.popEvent.2, .stop] } : Board K)
            ({ d' with homer := h', acts := d'.acts ++ [.handled q.popEvent.2, .stop] } : Board K') := by
          cases h0; exact .mk ..
        generalize hy : ({ d with homer := h', acts := d.acts ++ [.handled q.popEvent.2, .stop] } : Board K) = y at hx
        generalize hy' : ({ d' with homer := h', acts := d'.acts ++ [.handled q.popEvent.2, .stop] } : Board K') = y' at hx
        have e3 : List.foldl (exec t) y [.handled q.popEvent.2, .stop] = y.withCtrl y.ctrl.stop := rfl
        have e4 : List.foldl (exec t') y' [.handled q.popEvent.2, .stop] = y'.withCtrl y'.ctrl.stop := rfl
        simp only [hy, hy', e3, e4]
        refine ⟨?_, ?_, [.handled q.popEvent.2, .stop], ?_, by simp⟩
        · rw [withCtrl_one y (stop_events _), withCtrl_one y' (stop_events _)]
          exact (hx.ctrl _ _).push _
        · rw [withCtrl_ctrl, stop_position, ← hy]
          exact congrArg MotionCtrl.machinePosition dc
        · rw [withCtrl_one y (stop_events _)]
          show y.acts = _
          rw [← hy, ← da]
    · rw [if_neg he, if_neg he]
      exact ⟨(Same.mk ..).onQueue _, rfl, [], by simp [Board.onQueue], by simp⟩

/-- The iterations are computed with the other motion controller; homing reacts without regard to the motion controller. -/
def quietRun (t' : Target K') : Board K' → List Round → Bool
  | _, [] => true
  | b', r :: rs =>
    let d := if r.expired then b'.sample r.ports else b'
    decide (r.calcs = 0) && quietB d && quietRun t' (d.handle t') rs

theorem quietRun_prefix (t' : Target K') (l l' : List Round) : ∀ {b' : Board K'}, quietRun t' b' (l ++ l') = true → quietRun t' b' l = true := by
  induction l with
  | nil => intro b' _; rfl
  | cons r l ih =>
    intro b' h
    simp only [List.cons_append, quietRun, Bool.and_eq_true] at h ⊢
    exact ⟨h.1, ih h.2⟩

theorem Same.loops (t : Target K) (t' : Target K') (hc : t.cfg = t'.cfg) (rounds : List Round) : ∀ {b : Board K} {b' : Board K'},
    Same b b' → quietRun t' b' rounds = true → ∃ d d', b.loops t rounds = some d ∧ b'.loops t' rounds = some d' ∧ Same d d' ∧
      d.ctrl.machinePosition = b.ctrl.machinePosition ∧ Props.orders d.acts = Props.orders b.acts := by
  induction rounds with
  | nil => exact fun {b b'} h _ => ⟨b, b', rfl, rfl, h, rfl, rfl⟩
  | cons r rs ih =>
    intro b b' h hq
    simp only [quietRun, Bool.and_eq_true, decide_eq_true_eq] at hq
    obtain ⟨⟨h0, h1⟩, h2⟩ := hq
    have hs : Same (if r.expired then b.sample r.ports else b) (if r.expired then b'.sample r.ports else b') := by
      split
      · exact h.sample _
      · exact h
    have hcs : (if r.expired then b.sample r.ports else b).ctrl = b.ctrl := by
      split
      · exact sample_ctrl _ _
      · rfl
    have has : (if r.expired then b.sample r.ports else b).acts = b.acts := by
      split
      · exact Props.sample_acts _ _
      · rfl
    obtain ⟨g1, g2, new, g3, g4⟩ := hs.handle t t' hc h1
    obtain ⟨d, d', i1, i2, i3, i4, i5⟩ := ih g1 h2
    refine ⟨d, d', ?_, ?_, i3, ?_, ?_⟩
    · simp only [Board.loops, Board.loop, h0, Board.fill]; exact i1
    · simp only [Board.loops, Board.loop, h0, Board.fill]; exact i2
    · rw [i4, g2, hcs]
    · rw [i5, g3, has]
      have : Props.orders new = [] := by
        unfold Props.orders
        rw [List.filterMap_eq_nil_iff]
        intro x hx
        have := g4 x hx
        cases x <;> first | rfl | exact absurd rfl (this _)
      unfold Props.orders at this ⊢
      rw [List.filterMap_append, this, List.append_nil]

/-- Calculations in which the motion controller reports nothing. -/
theorem fill_silent (n : Nat) : ∀ {b : Board K}, (∀ k, k ≤ n → ∀ c log, b.ctrl.run (List.replicate k .calculate) = some (c, log) →
      c.state ≠ .stopped) → b.ctrl.buffer.level = 1 → MotionCtrl.SInv b.ctrl → ∃ c, b.fill n = some { b with ctrl := c } := by
  induction n with
  | zero => exact fun {b} _ _ _ => ⟨b.ctrl, rfl⟩
  | succ n ih =>
    intro b h hl hi
    obtain ⟨c', e, ts, h0, h1, -⟩ := hi.calculate
    have hs := h 0 (Nat.zero_le _) b.ctrl [] rfl
    have hcall : ∀ k c log, c'.run (List.replicate k .calculate) = some (c, log) →
        ∃ log', b.ctrl.run (List.replicate (k + 1) .calculate) = some (c, log') := by
      intro k c log hr
      rw [List.replicate_succ]
      simp only [MotionCtrl.run, MotionCtrl.call, h0, Option.map_some, hr]
      exact ⟨_, rfl⟩
    have hs' : c'.state ≠ .stopped := by
      obtain ⟨log', hr⟩ := hcall 0 c' [] rfl
      exact h 1 (by omega) c' log' hr
    obtain ⟨⟨-, k2, k3⟩ | ⟨k1, -⟩, -⟩ := MotionCtrl.calcLoop_single _ b.ctrl hs hl _ h0
    · obtain ⟨c, hc⟩ := ih (b := { b with ctrl := c' }) (fun k hk c log hr => by
        obtain ⟨log', hr'⟩ := hcall k c log hr
        exact h (k + 1) (by omega) c log' hr') k2 h1
      exact ⟨c, by rw [Board.fill, h0]; simp only; rw [withCtrl_none b k3]; exact hc⟩
    · exact absurd k1 hs'

end Board

namespace Props
open Num Float32 MotionSpec HomingSpec EventQueueSpec LoopSpec
open MotionCtrl (Unchanged)
open Single (num)
open private rarelyB_sound from Verif.Props.QueueRoom
open private loops_join from Verif.Props.HomingTimely

/-- The shipped homing configuration with a motion arithmetic that the kernel can compute. -/
def witnessTarget : Target loopKit := ⟨.cnc3axis, fun m => m.offset.num.natAbs, 1, (1 : Nat)⟩

/-- An iteration without calculations; the inputs are sampled or not; the switch ZMax is closed. -/
def witnessRound (sampled : Bool) : Round := ⟨0, sampled, zPorts false⟩

/-- Four samples of the closed switch, 15 iterations in between. -/
def witnessSamples : List Round := (List.replicate 4 (witnessRound true :: List.replicate 15 (witnessRound false))).flatten

/-- The limit that `setup` configures holds in all states of the main program. -/
theorem run_limit {K : MotionKit} (t : Target K) (p : Ports) (rounds : List Round) {b : Board K} (h : Board.run t p rounds = some b) :
    MotionCtrl.SInv b.ctrl ∧ b.ctrl.signals.maxTicksSinceLastOutput = t.maxTicks % 2 ^ 32 := by
  obtain ⟨b₀, h1, h2⟩ := loop_motion_history t p rounds
  obtain rfl : b₀ = b := by rw [h] at h1; exact (Option.some.inj h1).symm
  refine ⟨history_sInv h2, ?_⟩
  obtain ⟨ks, l, k1, k2, -⟩ := h2
  refine MotionCtrl.sInv_fresh.run_configured ks k2 ?_ k1
  intro k hk m w e
  simp only [List.mem_cons, List.mem_filterMap] at hk
  rcases hk with rfl | ⟨x, -, hx⟩
  · cases e
  · subst e
    cases x <;> simp [callOf] at hx

/-- After some number of calculations a homing move of Z by 60 mm at 10 mm/s, just ordered, is about 10 mm on its way, and until then
it does not stop. -/
theorem move_on_its_way {fpu : Fpu} {c c₀ : MotionCtrl (cnc3axis32.kit32 fpu)} (hs : c.state = .stopped)
    (hc : Unchanged (num width32) (MotionCtrl.fresh (cnc3axis32.kit32 fpu)).overrides c) {m : HomingMove} (hm : ShippedMove m)
    (hin : Inside m) (hpos : m.position = c.machinePosition) (h0 : c.machinePosition = fun _ => 0) (m1 : m.offset = 60) (m2 : m.speed = 10)
    (hc₀ : c₀ = (c.flushMotionBuffer.append (cnc3axis32.homingRequest32 m)).start)
    (hi : MotionCtrl.SInv c₀) (hmax : c₀.signals.maxTicksSinceLastOutput = 375) :
    ∃ n c₁ log, c₀.run (List.replicate n .calculate) = some (c₁, log) ∧ Cruising m c₁.machinePosition ∧
      ∀ k, k ≤ n → ∀ d log, c₀.run (List.replicate k .calculate) = some (d, log) → d.state ≠ .stopped := by
  classical
  have hadv : ∀ P : Nat → Int, advance m P = P m.axis := by
    intro P
    unfold advance
    rw [if_pos (by rw [m1]; norm_num), hpos, h0]
    simp
  have hp₀ : c₀.machinePosition = fun _ => 0 := by
    have e1 : ∀ d : MotionCtrl (cnc3axis32.kit32 fpu), d.start.machinePosition = d.machinePosition := by
      intro d
      unfold MotionCtrl.start
      split
      · exact (MotionCtrl.sameButProf_optimize _).pos
      · rfl
    have e2 : (c.flushMotionBuffer.append (cnc3axis32.homingRequest32 m)).machinePosition = c.flushMotionBuffer.machinePosition := by
      unfold MotionCtrl.append; split <;> rfl
    have e3 : c.flushMotionBuffer.machinePosition = c.machinePosition := by
      unfold MotionCtrl.flushMotionBuffer; split <;> rfl
    rw [hc₀, e1, e2, e3, h0]
  have made : ∀ {n d log}, c₀.run (List.replicate n .calculate) = some (d, log) → MakesMove32 m n d := by
    intro n d log hr
    rw [hc₀] at hr
    exact order_executed_single hs hc hm hin hpos hr
  have stopped : ∀ {n d log}, c₀.run (List.replicate n .calculate) = some (d, log) → d.machinePosition m.axis < 11000 →
      d.state ≠ .stopped := by
    intro n d log hr hlt hst
    have := (abs_le.1 ((made hr).over hst)).2
    rw [hpos, h0, m1] at this
    have hlt' : (d.machinePosition m.axis : ℝ) < 11000 := by exact_mod_cast hlt
    push_cast at this
    linarith
  have hex : ∃ n, ∀ d log, c₀.run (List.replicate n .calculate) = some (d, log) → 2000 ≤ d.machinePosition m.axis := by
    refine ⟨519000, fun d log hr => ?_⟩
    have := (abs_le.1 ((made hr).ends (by rw [m1, m2]; norm_num)).2).2
    rw [hpos, h0, m1] at this
    push_cast at this
    have : (2000 : ℝ) ≤ d.machinePosition m.axis := by linarith
    exact_mod_cast this
  have hP := Nat.find_spec hex
  have hmin : ∀ k, k < Nat.find hex → ∀ d log, c₀.run (List.replicate k .calculate) = some (d, log) → d.machinePosition m.axis < 2000 := by
    intro k hk d log hr
    by_contra hge
    refine Nat.find_min hex hk fun d' log' hr' => ?_
    rw [hr] at hr'
    simp only [Option.some.injEq, Prod.mk.injEq] at hr'
    rw [← hr'.1]
    omega
  generalize Nat.find hex = n at hP hmin
  cases n with
  | zero =>
    have := hP c₀ [] rfl
    rw [hp₀] at this
    norm_num at this
  | succ n =>
    obtain ⟨c₁, l₁, r₁, i₁, -⟩ := hi.run (List.replicate n .calculate)
    obtain ⟨c₂, l₂, r₂, -, -⟩ := i₁.run (List.replicate 1 .calculate)
    have hmax₁ : c₁.signals.maxTicksSinceLastOutput = 375 := by
      rw [MotionCtrl.SInv.run_limit _ hi (by intro k hk m w e; rw [(List.mem_replicate.1 hk).2] at e; cases e) r₁, hmax]
    have hlen := (i₁.calculates_ticks 1 r₂).2
    rw [hmax₁] at hlen
    have r := run_join _ r₁ r₂
    rw [← List.replicate_add] at r
    have hlt := hmin n (Nat.lt_succ_self n) c₁ l₁ r₁
    have hway : |(advance m c₂.machinePosition : ℝ) - advance m c₁.machinePosition| ≤
        200 * (m.speed * ((ticksOf l₂).length / 60000)) + 2 := by
      rw [hc₀] at r₁
      exact order_travel_single hs hc hm hin hpos r₁ r₂
    have hlenR : ((ticksOf l₂).length : ℝ) ≤ 375 := by exact_mod_cast (show (ticksOf l₂).length ≤ 375 from hlen)
    rw [hadv, hadv, m2] at hway
    have hltR : (c₁.machinePosition m.axis : ℝ) < 2000 := by exact_mod_cast hlt
    have hup : (c₂.machinePosition m.axis : ℝ) < 2015 := by
      have := (abs_le.1 hway).2
      push_cast at this
      linarith
    have hup' : c₂.machinePosition m.axis < 2015 := by exact_mod_cast hup
    have hlo := hP c₂ _ r
    refine ⟨n + 1, c₂, _, r, ⟨?_, ?_⟩, fun k hk d log hr => stopped hr ?_⟩
    · rw [hadv, m2]
      have : (2000 : ℚ) ≤ c₂.machinePosition m.axis := by exact_mod_cast hlo
      linarith
    · rw [hadv, m1, m2, abs_of_pos (by norm_num)]
      have : (c₂.machinePosition m.axis : ℚ) < 2015 := by exact_mod_cast hup'
      linarith
    · rcases Nat.lt_or_ge k (n + 1) with h | h
      · have := hmin k h d log hr
        omega
      · obtain rfl : k = n + 1 := by omega
        rw [r] at hr
        simp only [Option.some.injEq, Prod.mk.injEq] at hr
        rw [← hr.1]
        omega

private theorem loops_split {K : MotionKit} (t : Target K) {l l' : List Round} : ∀ {b b₂ : Board K}, b.loops t (l ++ l') = some b₂ →
    ∃ b₁, b.loops t l = some b₁ ∧ b₁.loops t l' = some b₂ := by
  induction l with
  | nil => exact fun {b _} h => ⟨b, rfl, h⟩
  | cons r l ih =>
    intro b b₂ h
    simp only [List.cons_append, Board.loops] at h ⊢
    cases hr : b.loop t r with
    | none => rw [hr] at h; cases h
    | some d => rw [hr] at h; exact ih h

/-- **The hypotheses of C133 are met by a run.** The main program calculates until the first homing move of Z is about 10 mm on its way;
then the switch ZMax is sampled closed five times, every 16 iterations, and 16 more iterations follow. -/
theorem homing_overrun_single_reachable (fpu : Fpu) : ∃ n b b' m,
    Board.run (shippedTarget32 fpu) (zPorts true) (⟨n, false, zPorts true⟩ :: witnessSamples) = some b ∧
    Timely fpu (zPorts true) ((⟨n, false, zPorts true⟩ :: witnessSamples) ++ witnessRound true :: List.replicate 16 (witnessRound false)) ∧
    SampledRarely 15 ((⟨n, false, zPorts true⟩ :: witnessSamples) ++ [witnessRound true]) ∧
    b.homer.state = .closing ∧ b.homer.currentHomingAxis = 2 ∧
    LastFive (switchOf .cnc3axis b.homer.currentHomingAxis) false ((⟨n, false, zPorts true⟩ :: witnessSamples) ++ [witnessRound true]) ∧
    (List.replicate 16 (witnessRound false)).length = 16 ∧
    b.loops (shippedTarget32 fpu) (witnessRound true :: List.replicate 16 (witnessRound false)) = some b' ∧
    (orders b.acts).getLast? = some m ∧ m.offset = 60 ∧ m.speed = 10 ∧ 1245 ≤ advance m b.ctrl.machinePosition := by
  -- the run of the other motion controller
  have hS : Board.Same (Board.setup (shippedTarget32 fpu) (zPorts true)) (Board.setup witnessTarget (zPorts true)) :=
    .setup (shippedTarget32 fpu) witnessTarget rfl _
  have D1 : Board.quietRun witnessTarget (Board.setup witnessTarget (zPorts true))
      ((⟨0, false, zPorts true⟩ :: witnessSamples) ++ witnessRound true :: List.replicate 16 (witnessRound false)) = true := by
    decide +kernel
  have D2 : ((Board.setup witnessTarget (zPorts true)).loops witnessTarget (⟨0, false, zPorts true⟩ :: witnessSamples)).map
      (fun d => (d.homer.state, d.homer.currentHomingAxis)) = some (.closing, 2) := by decide +kernel
  have D3 : (orders (Board.setup witnessTarget (zPorts true)).acts).map (fun m => (m.offset, m.speed)) = [((60 : ℚ), (10 : ℚ))] := by
    decide +kernel
  have hao : (Board.setup (shippedTarget32 fpu) (zPorts true)).acts = (Board.setup witnessTarget (zPorts true)).acts := by
    generalize Board.setup (shippedTarget32 fpu) (zPorts true) = x at hS ⊢
    generalize Board.setup witnessTarget (zPorts true) = y at hS ⊢
    cases hS; rfl
  obtain ⟨m, hm, m1, m2⟩ : ∃ m, orders (Board.setup (shippedTarget32 fpu) (zPorts true)).acts = [m] ∧ m.offset = 60 ∧ m.speed = 10 := by
    rw [hao]
    generalize orders (Board.setup witnessTarget (zPorts true)).acts = l at D3 ⊢
    rcases l with _ | ⟨x, _ | ⟨y, l⟩⟩
    · simp at D3
    · simp only [List.map_cons, List.map_nil, List.cons.injEq, Prod.mk.injEq, and_true] at D3
      exact ⟨x, rfl, D3⟩
    · simp at D3
  -- the state after `setup`
  obtain ⟨c1, -⟩ := Board.beforeHoming_spec (shippedTarget32 fpu) (zPorts true)
  have hst : (Board.beforeHoming (shippedTarget32 fpu) (zPorts true)).ctrl.state = .stopped := by rw [c1]; rfl
  have hmem : HomingAct.append m ∈ (Board.setup (shippedTarget32 fpu) (zPorts true)).acts := by
    have : m ∈ orders (Board.setup (shippedTarget32 fpu) (zPorts true)).acts := by rw [hm]; simp
    unfold orders at this
    rw [List.mem_filterMap] at this
    obtain ⟨x, hx, e⟩ := this
    cases x <;> simp at e
    subst e; exact hx
  obtain ⟨-, -, a3, a4⟩ := (Board.setup_phase (shippedTarget32 fpu) (zPorts true)).2 m hmem
  have hsm := shipped_moves (shippedTarget32 fpu) rfl (zPorts true) [] rfl (m := m) (by rw [hm]; simp)
  have hin : Inside m := by
    refine ⟨fun i _ => by rw [a3]; norm_num, ?_⟩
    rw [a3, m1]
    norm_num
  have hp0 : (Board.beforeHoming (shippedTarget32 fpu) (zPorts true)).ctrl.machinePosition = fun _ => 0 := by
    rw [c1]
    funext i
    simp only [MotionCtrl.resetMachinePosition]
    split <;> rfl
  have hun : Unchanged (num width32) (MotionCtrl.fresh (cnc3axis32.kit32 fpu)).overrides
      (Board.beforeHoming (shippedTarget32 fpu) (zPorts true)).ctrl := by rw [c1]; exact ⟨rfl, rfl⟩
  obtain ⟨hi, hmax⟩ := run_limit (shippedTarget32 fpu) (zPorts true) [] rfl
  have hlev : (Board.setup (shippedTarget32 fpu) (zPorts true)).ctrl.buffer.level = 1 := by
    rw [a4]
    generalize (Board.beforeHoming (shippedTarget32 fpu) (zPorts true)).ctrl = c at hst
    have l2 : (c.flushMotionBuffer.append ((shippedTarget32 fpu).request m)).buffer.level = 1 := by
      rw [MotionCtrl.flushMotionBuffer, if_pos (by simp [MotionCtrl.isRunning, hst])]; rfl
    unfold MotionCtrl.start
    rw [if_pos (by simp [MotionBuffer.isEmpty, l2]), (MotionCtrl.sameButProf_optimize _).level]
    exact l2
  -- the approach
  obtain ⟨n, c, log, hr, hcr, hns⟩ := move_on_its_way hst hun hsm hin (a3.trans hp0.symm) hp0 m1 m2 a4 hi hmax
  obtain ⟨c', hfill⟩ := Board.fill_silent n hns hlev hi
  obtain rfl : c' = c := by
    obtain ⟨log', e⟩ := Board.fill_run n hfill
    rw [hr] at e
    simp only [Option.some.injEq, Prod.mk.injEq] at e
    exact e.1.symm
  generalize hSg : Board.setup (shippedTarget32 fpu) (zPorts true) = S at *
  generalize Board.setup witnessTarget (zPorts true) = S' at *
  have hT : Board.Same ({ S with ctrl := c' } : Board (cnc3axis32.kit32 fpu)) S' := by cases hS; exact .mk ..
  have hTo : orders ({ S with ctrl := c' } : Board (cnc3axis32.kit32 fpu)).acts = [m] := hm
  have hTp : ({ S with ctrl := c' } : Board (cnc3axis32.kit32 fpu)).ctrl.machinePosition = c'.machinePosition := rfl
  generalize ({ S with ctrl := c' } : Board (cnc3axis32.kit32 fpu)) = T at *
  have hloop : ∀ rs, S.loops (shippedTarget32 fpu) (⟨n, false, zPorts true⟩ :: rs) =
      T.loops (shippedTarget32 fpu) (⟨0, false, zPorts true⟩ :: rs) := by
    intro rs
    simp only [Board.loops, Board.loop, hfill, Board.fill]
  have hpre : ∀ l l' : List Round, (⟨0, false, zPorts true⟩ :: witnessSamples) ++ witnessRound true ::
      List.replicate 16 (witnessRound false) = (⟨0, false, zPorts true⟩ :: l) ++ l' →
      ∃ d d', S.loops (shippedTarget32 fpu) (⟨n, false, zPorts true⟩ :: l) = some d ∧
        S'.loops witnessTarget (⟨0, false, zPorts true⟩ :: l) = some d' ∧ Board.Same d d' ∧
        d.ctrl.machinePosition = c'.machinePosition ∧ orders d.acts = [m] := by
    intro l l' e
    rw [e] at D1
    obtain ⟨d, d', h1, h2, h3, h4, h5⟩ := Board.Same.loops (shippedTarget32 fpu) witnessTarget rfl _ hT (Board.quietRun_prefix _ _ _ D1)
    exact ⟨d, d', by rw [hloop]; exact h1, h2, h3, h4.trans hTp, h5.trans hTo⟩
  obtain ⟨b, d', hb, hd', hbd, hbp, hbo⟩ := hpre witnessSamples _ rfl
  obtain ⟨b', -, hb', -, -, -, -⟩ := hpre (witnessSamples ++ witnessRound true :: List.replicate 16 (witnessRound false)) [] (by simp)
  have hhom : b.homer.state = .closing ∧ b.homer.currentHomingAxis = 2 := by
    rw [hd'] at D2
    simp only [Option.map_some, Option.some.injEq, Prod.mk.injEq] at D2
    cases hbd; exact D2
  have hadv : 1245 ≤ advance m b.ctrl.machinePosition := by
    have := hcr.1
    rw [m2] at this
    rw [hbp]
    have h : (1245 : ℚ) ≤ advance m c'.machinePosition := by linarith
    exact_mod_cast h
  refine ⟨n, b, b', m, by unfold Board.run; rw [hSg]; exact hb, ?_, ?_, hhom.1, hhom.2, ?_, List.length_replicate, ?_, by rw [hbo]; rfl,
    m1, m2, hadv⟩
  · intro before r after x x' he hx hl
    unfold Board.run at hx
    rw [hSg] at hx
    cases before with
    | nil =>
      simp only [List.cons_append, List.nil_append, List.cons.injEq] at he
      obtain ⟨rfl, rfl⟩ := he
      simp only [Board.loops, Option.some.injEq] at hx
      subst hx
      obtain ⟨d, -, e1, -, -, e4, e5⟩ := hpre [] _ rfl
      simp only [Board.loops, hl, Option.some.injEq] at e1
      subst e1
      refine ⟨fun _ m' hm' => ?_, by rw [e5, hm]; simp⟩
      rw [hm] at hm'
      simp only [List.getLast?_singleton, Option.some.injEq] at hm'
      subst hm'
      rw [e4]; exact hcr
    | cons y before =>
      simp only [List.cons_append, List.cons.injEq] at he
      obtain ⟨rfl, he⟩ := he
      obtain ⟨d, -, e1, -, -, -, e5⟩ := hpre before (r :: after) (by rw [List.cons_append, he]; rfl)
      obtain ⟨f, -, f1, -, -, f4, f5⟩ := hpre (before ++ [r]) after (by rw [List.cons_append, he]; simp)
      rw [e1] at hx
      obtain rfl := Option.some.inj hx
      obtain rfl : x' = f := by
        have : S.loops (shippedTarget32 fpu) ((⟨n, false, zPorts true⟩ :: before) ++ [r]) = some x' := by
          refine loops_join _ e1 ?_
          simp only [Board.loops, hl]
        rw [List.cons_append, f1] at this
        exact (Option.some.inj this).symm
      refine ⟨fun _ m' hm' => ?_, by rw [e5, f5]; simp⟩
      rw [e5] at hm'
      simp only [List.getLast?_singleton, Option.some.injEq] at hm'
      subst hm'
      rw [f4]; exact hcr
  · refine rarelyB_sound (k := 0) ?_
    rw [List.cons_append, rarelyB]
    simp only [Bool.false_eq_true, if_false]
    decide +kernel
  · rw [hhom.2]
    refine ⟨[], List.replicate 5 (zPorts false), ?_, rfl, fun q hq => ?_⟩
    · show sampledPorts (witnessSamples ++ [witnessRound true]) = _
      rfl
    · rw [(List.mem_replicate.1 hq).2]
      decide +kernel
  · obtain ⟨y, h1, h2⟩ := loops_split _ (l := ⟨n, false, zPorts true⟩ :: witnessSamples) (l' := witnessRound true :: List.replicate 16 (witnessRound false)) hb'
    rw [hb] at h1
    rw [Option.some.inj h1]
    exact h2

end Props
end Moovr
