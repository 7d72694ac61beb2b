import Verif.Lemmas.HomingWaits
import Verif.Props.Homing
import Verif.Props.MainLoop
/-!
# Homing and the motion controller together (C77, C78)

In the whole machine (`Verif.Model.MainLoop`), for every motion arithmetic, every homing configuration and every schedule.
-/
namespace Moovr.Props
open EventQueueSpec LoopSpec
variable {K : MotionKit} (t : Target K)

/-- The moves that homing has ordered, first one first. -/
def orders (acts : List HomingAct) : List HomingMove :=
  acts.filterMap fun
    | .append m => some m
    | _ => none

private theorem mem_orders {acts : List HomingAct} {m : HomingMove} : m ∈ orders acts ↔ .append m ∈ acts := by
  unfold orders
  rw [List.mem_filterMap]
  constructor
  · rintro ⟨a, ha, he⟩
    cases a <;> simp at he
    subst he
    exact ha
  · exact fun h => ⟨_, h, rfl⟩

private theorem ordered_eq (acts : List HomingAct) :
    Board.ordered t acts = ((orders acts).getLast?.map fun m => some (t.request m)).toList := by
  unfold Board.ordered orders
  rw [← List.getLast?_map, List.map_filterMap]
  congr 2
  refine congrArg₂ List.filterMap (funext fun a => ?_) rfl
  cases a <;> rfl

/-- **C77, where the schedule is orderly.** If in iteration `r` homing orders the move `m`, then the motion controller was at
standstill before, `m` starts from the position where the machine was, and afterwards the motion controller is running with
`m` as its only motion. Missing: that every schedule is orderly (it is not, see below). -/
theorem homing_orders_partial (p : Ports) (rounds : List Round) {r : Round} {b b₁ b' : Board K} (h : Board.run t p rounds = some b)
    (ho : Board.Orderly t (Board.setup t p) rounds) (ho' : Board.OrderlyRound t b r)
    (hf : b.fill r.calcs = some b₁) (hl : b.loop t r = some b') :
    ∃ new, orders b'.acts = orders b.acts ++ new ∧ ∀ m ∈ new,
      b₁.ctrl.state = .stopped ∧ m.position = b₁.ctrl.machinePosition ∧
      b'.ctrl.state = .running ∧ b'.ctrl.requests = [some (t.request m)] := by
  have hi := Board.loops_phase t rounds (Board.setup_phase t p).1 ho h
  obtain ⟨-, ⟨fresh, hfr⟩, b₂, hb₂, hm, -⟩ := Board.loop_phase t hi ho' hl
  rw [hf, Option.some.injEq] at hb₂
  subst hb₂
  refine ⟨orders fresh, by rw [← hfr]; simp [orders], fun m hmem => ?_⟩
  obtain ⟨a1, a2, a3, a4, -⟩ := hm m (by rw [← hfr, List.drop_left]; exact mem_orders.1 hmem)
  exact ⟨a1, a4, a2, a3⟩

/-- **C77, the first move** is ordered in `setup`, at the origin, and is then the only motion. -/
theorem homing_orders_first (p : Ports) : ∀ m ∈ orders (Board.setup t p).acts, m.position = (fun _ => 0) ∧
    (Board.setup t p).ctrl.state = .running ∧ (Board.setup t p).ctrl.requests = [some (t.request m)] := by
  intro m hm
  obtain ⟨a1, a2, a3, -⟩ := (Board.setup_phase t p).2 m (mem_orders.1 hm)
  exact ⟨a3, a1, a2⟩

/-- **C77, between the orders, where the schedule is orderly.** The queue of motions is empty or holds the move ordered last,
and nothing else; while homing has not begun or is complete the machine stands still. -/
theorem homing_queue_partial (p : Ports) (rounds : List Round) {b : Board K} (h : Board.run t p rounds = some b)
    (ho : Board.Orderly t (Board.setup t p) rounds) :
    (b.ctrl.requests = [] ∨ ∃ m, (orders b.acts).getLast? = some m ∧ b.ctrl.requests = [some (t.request m)]) ∧
    (b.homer.state = .lost ∨ b.homer.state = .found → b.ctrl.state = .stopped) := by
  have hi := Board.loops_phase t rounds (Board.setup_phase t p).1 ho h
  constructor
  · rcases hi.held with h | h
    · exact .inl h
    · rw [ordered_eq] at h
      cases hl : (orders b.acts).getLast? with
      | none => left; rw [h, hl]; rfl
      | some m => right; exact ⟨m, rfl, by rw [h, hl]; rfl⟩
  · intro hs
    have hp := hi.phase
    unfold Board.Phase at hp
    rcases hs with hs | hs <;> rw [hs] at hp <;> exact hp

/-! ## The hypothesis can be met -/

/-- A test for `Regular`. -/
def regularB (c : MotionCtrl K) : Bool :=
  match c.calcNext with
  | none => true
  | some r => decide (MotionCtrl.stopCount c r.1 ≤ 1) &&
    (!decide (c.state = .running) || !decide (r.1.state = .stopped) || decide (r.1.buffer.level = 0))

private theorem regularB_sound {c : MotionCtrl K} (h : regularB c = true) : MotionCtrl.Regular c := by
  intro r hr
  unfold regularB at h
  rw [hr] at h
  simp only [Bool.and_eq_true, decide_eq_true_eq, Bool.or_eq_true, Bool.not_eq_true', decide_eq_false_iff_not] at h
  refine ⟨h.1, fun h1 h2 => ?_⟩
  rcases h.2 with (h | h) | h
  · exact absurd h1 h
  · exact absurd h2 h
  · exact h

/-- Did homing ask for a stop? -/
def asksStop (acts : List HomingAct) : Bool := acts.any fun | .stop => true | _ => false

/-- A test for `Orderly`. -/
def orderlyB (b : Board K) : List Round → Bool
  | [] => true
  | r :: rs =>
    (List.range r.calcs).all (fun k => match b.fill k with | some b₁ => regularB b₁.ctrl | none => true) &&
    (match b.fill r.calcs, b.loop t r with
      | some b₁, some b' => (!asksStop (b'.acts.drop b.acts.length) || decide (b₁.ctrl.buffer.level ≠ 0)) && orderlyB b' rs
      | _, _ => false)

theorem orderlyB_sound : ∀ (rs : List Round) (b : Board K), orderlyB t b rs = true → Board.Orderly t b rs := by
  intro rs
  induction rs with
  | nil => intro _ _; trivial
  | cons r rs ih =>
    intro b h
    unfold orderlyB at h
    rw [Bool.and_eq_true, List.all_eq_true] at h
    obtain ⟨h1, h2⟩ := h
    split at h2
    · rename_i b₁ b' hb₁ hb'
      rw [Bool.and_eq_true, Bool.or_eq_true, decide_eq_true_eq] at h2
      refine ⟨⟨fun k hk b₂ hb₂ => ?_, fun b₂ b₃ hb₂ hb₃ hs => ?_⟩, fun b₃ hb₃ => ?_⟩
      · have := h1 k (List.mem_range.2 hk)
        rw [hb₂] at this
        exact regularB_sound this
      · rw [hb₁, Option.some.injEq] at hb₂
        rw [hb', Option.some.injEq] at hb₃
        subst hb₂ hb₃
        refine h2.1.resolve_left fun hn => ?_
        rw [Bool.not_eq_true', asksStop, List.any_eq_false] at hn
        exact hn _ hs rfl
      · rw [hb', Option.some.injEq] at hb₃
        subst hb₃
        exact ih _ h2.2
    · cases h2

/-- The complete homing run of C63 is orderly. -/
example : Board.Orderly loopTarget (Board.setup loopTarget (zPorts true))
    (List.replicate 12 (zRound false) ++ List.replicate 16 (zRound true)) :=
  orderlyB_sound _ _ _ (by decide +kernel)

/-- It orders three moves of Z (60 mm up at 10 mm/s, 60 mm down at 1 mm/s, 3 mm down at 10 mm/s). -/
example : (Board.run loopTarget (zPorts true) (List.replicate 12 (zRound false) ++ List.replicate 16 (zRound true))).map
    (fun b => (orders b.acts).map fun m => (m.axis, m.offset, m.speed)) = some [(2, 60, 10), (2, -60, 1), (2, -3, 10)] := by
  decide +kernel

/-! ## The code does not have the property -/

/-- Some calculations, then all inputs are sampled: the switch ZMax as given, the others together. -/
def jamRound (calcs : Nat) (z others : Bool) : Round :=
  ⟨calcs, true, ⟨0, (if z then 1#32 else 0) ||| (if others then 0xFE#32 else 0), if others then 0x02000000#32 else 0⟩⟩

/-- Homing of Z. The switch closes just when the closing move ends by itself (after 60 mm), while the other inputs change, too, so
that some events are waiting before it. -/
def jamRounds : List Round :=
  [jamRound 50 true true, jamRound 0 true false] ++ List.replicate 5 (jamRound 0 false false) ++
    [jamRound 0 true false, jamRound 11 true false] ++ List.replicate 5 (jamRound 0 true false) ++ [jamRound 1 true false] ++
    List.replicate 5 (jamRound 0 true false)

/-- **C77 fails in general.** The closing move has ended (and this was reported) when homing handles the event of the switch and
asks for a stop; this is confirmed at once by a second report, which homing takes for the stop of the *next* move. So it orders a
move while the motion controller is still stopping; the new move is queued behind the old one. -/
theorem homing_orders_violated : ¬ ∀ (K : MotionKit) (t : Target K) (p : Ports) (rounds : List Round) (r : Round) (b b₁ b' : Board K),
    Board.run t p rounds = some b → b.fill r.calcs = some b₁ → b.loop t r = some b' →
    ∃ new, orders b'.acts = orders b.acts ++ new ∧ ∀ m ∈ new,
      b₁.ctrl.state = .stopped ∧ m.position = b₁.ctrl.machinePosition ∧
      b'.ctrl.state = .running ∧ b'.ctrl.requests = [some (t.request m)] := by
  intro hall
  have key : ∃ b b₁ b', Board.run loopTarget (zPorts true) (jamRounds.take 19) = some b ∧ b.fill 0 = some b₁ ∧
      b.loop loopTarget (jamRound 0 true false) = some b' ∧ (orders b.acts).length < (orders b'.acts).length ∧
      b₁.ctrl.state ≠ .stopped := by
    have h1 : ((Board.run loopTarget (zPorts true) (jamRounds.take 19)).bind fun b => (b.fill 0).bind fun b₁ =>
        (b.loop loopTarget (jamRound 0 true false)).map fun b' =>
          decide ((orders b.acts).length < (orders b'.acts).length) && decide (b₁.ctrl.state ≠ .stopped)) = some true := by
      decide +kernel
    rw [Option.bind_eq_some_iff] at h1
    obtain ⟨b, hb, h1⟩ := h1
    rw [Option.bind_eq_some_iff] at h1
    obtain ⟨b₁, hb₁, h1⟩ := h1
    rw [Option.map_eq_some_iff] at h1
    obtain ⟨b', hb', h1⟩ := h1
    rw [Bool.and_eq_true, decide_eq_true_eq, decide_eq_true_eq] at h1
    exact ⟨b, b₁, b', hb, hb₁, hb', h1⟩
  obtain ⟨b, b₁, b', h1, h2, h3, h4, h5⟩ := key
  obtain ⟨new, e1, e2⟩ := hall loopKit loopTarget (zPorts true) _ (jamRound 0 true false) b b₁ b' h1 h2 h3
  cases new with
  | nil => rw [e1] at h4; simp at h4
  | cons m ms => exact h5 (e2 m (by simp)).1

/-- Afterwards two motions are in the queue, the old one first. -/
example : (Board.run loopTarget (zPorts true) jamRounds).map (fun b => (b.homer.state, (b.ctrl.requests : List (Option Nat)))) =
    some (.offsettingWaitForStop, [some 60, some 3]) := by decide +kernel

/-! ## C78: does homing wait for something that cannot happen? -/

/-- **C78, where the schedule is orderly and no event is lost.** If the machine stands still and no event is pending, homing has
not begun, is complete, or waits for a limit switch; it never waits in vain for a standstill. Missing: waiting for a switch. -/
theorem homing_waits_partial (p : Ports) (rounds : List Round) {b : Board K} (h : Board.run t p rounds = some b)
    (ho : Board.Orderly t (Board.setup t p) rounds) (hn : NoOverflow b.calls) (hs : b.ctrl.state = .stopped)
    (hq : pending b.calls = []) :
    b.homer.state = .lost ∨ b.homer.state = .found ∨ b.homer.state = .closing ∨ b.homer.state = .opening := by
  have hi := Board.loops_phase t rounds (Board.setup_phase t p).1 ho h
  have ha := Board.loops_awaits t rounds (Board.setup_awaits t p) (Board.setup_phase t p).1 ho h hn
  have h0 : b.stops = 0 := by simp [Board.stops, hq]
  have hp := hi.phase
  unfold Board.Phase at hp
  unfold Board.Awaits Board.WaitsStop at ha
  cases hst : b.homer.state
  all_goals simp only [hst] at hp ha ⊢
  all_goals first | simp; done | skip
  all_goals (have := ha (by simp) hs; omega)

private theorem reports_constant (level : Bool) : ∀ (n : Nat) (samples : List Bool) (rs : List (Option Bool)),
    (∀ x ∈ samples, x = level) → DebounceSpec.Reports level samples (List.replicate n level) rs → ∀ o ∈ rs, o = none := by
  intro n
  induction n with
  | zero =>
    intro samples rs _ h o ho
    cases h
    simp at ho
  | succ n ih =>
    intro samples rs hs h o ho
    rw [List.replicate_succ] at h
    have hs' : ∀ x ∈ samples ++ [level], x = level := by
      intro x hx
      rcases List.mem_append.1 hx with hx | hx
      · exact hs x hx
      · simpa using hx
    cases h with
    | quiet hj h =>
      rcases List.mem_cons.1 ho with rfl | ho
      · rfl
      · exact ih _ _ hs' h o ho
    | change hj h =>
      obtain ⟨w, hw, he⟩ := hj
      have : w.count (!level) = 0 := by
        rw [List.count_eq_zero]
        intro hm
        have := hs' _ (hw.subset hm)
        simp at this
      unfold DebounceSpec.excess at he
      rw [this] at he
      omega

private theorem inputEvent_eq {i j : Nat} {c o : Event} (hi : inputEvents[i]? = some (c, o)) (hj : j < 9) {high : Bool}
    (h : inputEvent j high = c ∨ inputEvent j high = o) : j = i := by
  have hi9 : i < 9 := by
    by_contra hc
    rw [List.getElem?_eq_none (by simp [inputEvents]; omega)] at hi
    cases hi
  have key : ∀ i < 9, ∀ j < 9, ∀ high : Bool, ∀ x, inputEvents[i]? = some x → (inputEvent j high = x.1 ∨ inputEvent j high = x.2) → j = i := by
    decide +kernel
  exact key i hi9 j hj high _ hi h

theorem told_subset (b : Board K) (hf : acceptedRev b.calls.reverse = told b.acts ++ pending b.calls) :
    ∀ e ∈ told b.acts, e ∈ offered b.calls := by
  have key : ∀ cs : List Call, ∀ e ∈ acceptedRev cs, e ∈ offered cs := by
    intro cs
    induction cs with
    | nil => intro e he; simp [acceptedRev] at he
    | cons c cs ih =>
      intro e he
      cases c with
      | push x =>
        rw [acceptedRev] at he
        simp only [offered, List.filterMap_cons]
        split at he
        · rcases List.mem_append.1 he with he | he
          · exact List.mem_cons_of_mem _ (ih e he)
          · simp at he
            subst he
            exact List.mem_cons_self ..
        · exact List.mem_cons_of_mem _ (ih e he)
      | reinit => simp [acceptedRev] at he
      | pop => exact ih e he
      | hasEvents => exact ih e he
      | getLevelMax => exact ih e he
      | getLastError => exact ih e he
  intro e he
  have := key _ e (by rw [hf]; exact List.mem_append_left _ he)
  simpa [offered] using this

private theorem run_events {cfg : HomingConfig} (h : Homer) (hst : h.state = .closing ∨ h.state = .opening) :
    ∀ (cs : List (Homer.Call × HomingEnv)) (es : List Event), cs.map (·.1) = es.map .event →
    (∀ e ∈ es, e ≠ h.limitSwitchClose ∧ e ≠ h.limitSwitchOpen) → Homer.run cfg h cs = (h, es.map .handled) := by
  intro cs
  induction cs with
  | nil =>
    intro es he _
    have : es = [] := by simpa using he.symm
    subst this
    rfl
  | cons x cs ih =>
    intro es he hn
    cases es with
    | nil => simp at he
    | cons e es =>
      obtain ⟨c, env⟩ := x
      simp only [List.map_cons, List.cons.injEq] at he
      obtain ⟨rfl, he⟩ := he
      have hr : Homer.react cfg env h e = (h, []) := by
        obtain ⟨h1, h2⟩ := hn e (by simp)
        unfold Homer.react
        rcases hst with hst | hst <;> simp only [hst]
        · exact if_neg (Ne.symm h1)
        · exact if_neg (Ne.symm h2)
      have hc : Homer.call cfg h (.event e, env) = (h, [.handled e]) := by
        simp only [Homer.call, Homer.handleEvents, hr]
      rw [Homer.run, hc]
      simp only
      rw [ih es he (fun e he => hn e (by simp [he]))]
      rfl

/-- **C78 fails**: homing waits for its switch forever. If the input of the switch of the first axis never changes, then homing stays
in its first stage, however long the program runs, whatever the other inputs and the motion controller do: it orders no second move and
reports neither completion nor an error. -/
theorem homing_stuck (hn : t.cfg.n ≤ 3) {a i : Nat} {c o : Event} (ha : (HomingSpec.axes t.cfg).head? = some a)
    (hsw : (a, t.cfg.homingDirection a, c, o) ∈ HomingSpec.switches) (hi : inputEvents[i]? = some (c, o))
    (p : Ports) (rounds : List Round) (hp : ∀ q ∈ sampledPorts rounds, pin i q = pin i p)
    {b : Board K} (h : Board.run t p rounds = some b) :
    (b.homer.state = .closing ∨ b.homer.state = .opening) ∧ (orders b.acts).length = 1 ∧
    ∀ e, .push e ∈ b.acts → e = .homingStarted := by
  have hi9 : i < 9 := by
    by_contra hc
    rw [List.getElem?_eq_none (by simp [inputEvents]; omega)] at hi
    cases hi
  -- no event of the switch
  have hnone : ∀ e ∈ told b.acts, e ≠ c ∧ e ≠ o := by
    intro e he
    by_contra hc
    have hc' : e = c ∨ e = o := by
      by_contra hx
      rw [not_or] at hx
      exact hc hx
    have hoff := told_subset b (loop_fifo t p rounds b h) e he
    have hin : isInput e = true := by
      unfold isInput
      rw [List.any_eq_true]
      refine ⟨(c, o), List.mem_of_getElem? hi, ?_⟩
      simpa using hc'
    obtain ⟨reports, hr, hes⟩ := loop_changes t p rounds b h
    have hm : e ∈ (offered b.calls).filter isInput := List.mem_filter.2 ⟨hoff, hin⟩
    rw [hes, List.mem_flatMap] at hm
    obtain ⟨k, -, hm⟩ := hm
    unfold roundEvents at hm
    rw [List.mem_filterMap] at hm
    obtain ⟨j, hj, hm⟩ := hm
    rw [List.mem_range] at hj
    rw [Option.map_eq_some_iff] at hm
    obtain ⟨high, hk, hev⟩ := hm
    have hji : j = i := inputEvent_eq hi hj (high := high) (by rw [hev]; exact hc')
    subst hji
    have hrep := hr j hj
    have hmap : (sampledPorts rounds).map (pin j) = List.replicate (sampledPorts rounds).length (pin j p) := by
      rw [List.eq_replicate_iff]
      refine ⟨by simp, fun x hx => ?_⟩
      rw [List.mem_map] at hx
      obtain ⟨q, hq, rfl⟩ := hx
      exact hp q hq
    rw [hmap] at hrep
    have := reports_constant _ _ _ _ (by simp) hrep (some high) (by
      rw [List.getD_eq_getElem?_getD] at hk
      cases hg : (reports j)[k]? with
      | none => rw [hg] at hk; cases hk
      | some x =>
        rw [hg] at hk
        simp only [Option.getD_some] at hk
        subst hk
        exact List.mem_of_getElem? hg)
    cases this
  -- the homing controller
  obtain ⟨hist, -, h1, h2, -, -⟩ := loop_homing t p rounds b h
  cases hist with
  | nil => simp at h2
  | cons x hist =>
    obtain ⟨x, env⟩ := x
    simp only [List.map_cons, List.cons.injEq] at h2
    obtain ⟨rfl, h2⟩ := h2
    rw [Homer.run] at h1
    simp only [Prod.mk.injEq, Homer.call] at h1
    obtain ⟨as, hax⟩ : ∃ as, HomingSpec.axes t.cfg = a :: as := by
      cases hl : HomingSpec.axes t.cfg with
      | nil => rw [hl] at ha; cases ha
      | cons x xs => rw [hl] at ha; simp at ha; subst ha; exact ⟨xs, rfl⟩
    obtain ⟨-, -, s3⟩ := Homer.selectAxis_spec (cfg := t.cfg) { Homer.fresh t.cfg with homingSequenceIndex := 0 }
    simp only [Homer.toDo_zero] at s3
    obtain ⟨t1, t2, t3, -, -⟩ := s3 a as hax
    have hclose := (t2.closes hn c).2 (by rw [t3]; exact ⟨o, hsw⟩)
    have hopen := (t2.opens hn o).2 (by rw [t3]; exact ⟨c, hsw⟩)
    -- it was started at standstill
    have hpre := Board.loops_acts t rounds h
    rw [← h1.2] at hpre
    have hsetup : ∃ i c m, (Board.setup t p).acts =
        [.started, .push .homingStarted, .sawRunning false, .sawClosed i c, .flush, .append m, .go] := by
      obtain ⟨c1, -, -, -, c5, c6⟩ := Board.beforeHoming_spec t p
      rw [Board.setup_eq]
      generalize Board.beforeHoming t p = b₀ at c1 c5 c6
      have hr : b₀.env.running = false := by
        have hs : b₀.ctrl.state = .stopped := by rw [c1]; rfl
        simp [Board.env, MotionCtrl.isRunning, hs]
      have hcases := Board.start_cases t.cfg b₀.env b₀.homer hr
      obtain ⟨es, hpp, -⟩ := Board.pushed_execs t (Homer.start t.cfg b₀.env b₀.homer).2
        { b₀ with homer := (Homer.start t.cfg b₀.env b₀.homer).1, acts := b₀.acts ++ (Homer.start t.cfg b₀.env b₀.homer).2 }
        (Board.okAct_start _ _ _)
      have hac : (b₀.withHomer t (Homer.start t.cfg b₀.env b₀.homer)).acts = (Homer.start t.cfg b₀.env b₀.homer).2 := by
        rw [Board.withHomer, hpp.acts, c6]; rfl
      rw [hac]
      rcases hcases with ⟨-, h2⟩ | ⟨-, i, c, m, -, h3⟩
      · exfalso
        rw [c5] at h2
        unfold Homer.start at h2
        simp only [t1, if_true, hr, Bool.false_eq_true, if_false] at h2
        simp at h2
      · exact ⟨i, c, m, h3⟩
    obtain ⟨i', c', m', hsetup⟩ := hsetup
    rw [hsetup] at hpre
    have hrun : env.running = false := by
      cases hr : env.running with
      | false => rfl
      | true =>
        exfalso
        have : (Homer.start t.cfg env (.fresh t.cfg)).2 = [.started, .push .homingStarted, .sawRunning true, .stop] := by
          unfold Homer.start
          simp only [t1, if_true, hr]
          rfl
        rw [this] at hpre
        obtain ⟨rest, hrest⟩ := hpre
        simp at hrest
    obtain ⟨q1, q2, q3, q4, q5⟩ : (Homer.start t.cfg env (.fresh t.cfg)).1.limitSwitchClose = c ∧
        (Homer.start t.cfg env (.fresh t.cfg)).1.limitSwitchOpen = o ∧
        ((Homer.start t.cfg env (.fresh t.cfg)).1.state = .closing ∨ (Homer.start t.cfg env (.fresh t.cfg)).1.state = .opening) ∧
        (orders (Homer.start t.cfg env (.fresh t.cfg)).2).length = 1 ∧
        ∀ e, .push e ∈ (Homer.start t.cfg env (.fresh t.cfg)).2 → e = .homingStarted := by
      unfold Homer.start
      simp only [t1, if_true, hrun, Bool.false_eq_true, if_false]
      refine ⟨hclose, hopen, ?_⟩
      unfold Homer.approach
      simp only
      split
      · exact ⟨.inr rfl, rfl, by simp [Homer.goTo, Homer.enterState]⟩
      · exact ⟨.inl rfl, rfl, by simp [Homer.goTo, Homer.enterState]⟩
    have hev := run_events (cfg := t.cfg) _ q3 hist _ h2 (by
      intro e he
      rw [q1, q2]
      exact hnone e he)
    rw [hev] at h1
    refine ⟨by rw [← h1.1]; exact q3, ?_, ?_⟩
    · rw [← h1.2]
      have : orders ((told b.acts).map HomingAct.handled) = [] := by
        unfold orders
        rw [List.filterMap_eq_nil_iff]
        intro x hx
        obtain ⟨e, -, rfl⟩ := List.mem_map.1 hx
        rfl
      rw [show orders ((Homer.start t.cfg env (.fresh t.cfg)).2 ++ (told b.acts).map HomingAct.handled) =
        orders (Homer.start t.cfg env (.fresh t.cfg)).2 ++ orders ((told b.acts).map HomingAct.handled) by simp [orders], this]
      simpa using q4
    · intro e he
      rw [← h1.2] at he
      rcases List.mem_append.1 he with he | he
      · exact q5 e he
      · simp at he

/-- A test for `NoOverflow`. -/
def roomB (q : List Event) : List Call → Bool
  | [] => true
  | .push e :: cs => decide (q.length < capacity) && roomB (next q (.push e)) cs
  | c :: cs => roomB (next q c) cs

theorem roomB_sound : ∀ (cs : List Call) (q : List Event), roomB q cs = true →
    ∀ before e after, cs = before ++ .push e :: after → (before.foldl next q).length < capacity := by
  intro cs
  induction cs with
  | nil => intro q _ before e after h; simp at h
  | cons c cs ih =>
    intro q h before e after he
    cases before with
    | nil =>
      simp only [List.nil_append, List.cons.injEq] at he
      obtain ⟨rfl, -⟩ := he
      rw [roomB, Bool.and_eq_true, decide_eq_true_eq] at h
      exact h.1
    | cons x before =>
      simp only [List.cons_append, List.cons.injEq] at he
      obtain ⟨rfl, he⟩ := he
      refine ih (next q c) ?_ before e after he
      cases c <;> simp only [roomB, Bool.and_eq_true] at h <;> first | exact h.2 | exact h

/-- C78 fails, a concrete run: after 75 iterations the closing move of Z has ended, the machine stands still and no event is pending,
but homing still waits for its switch. By `homing_stuck` it does so in all continuations in which the switch does not change. -/
theorem homing_waits_violated : ¬ ∀ (K : MotionKit) (t : Target K) (p : Ports) (rounds : List Round) (b : Board K),
    Board.run t p rounds = some b → NoOverflow b.calls → b.ctrl.state = .stopped → pending b.calls = [] →
    b.homer.state = .lost ∨ b.homer.state = .found := by
  intro hall
  have h1 : ((Board.run loopTarget (zPorts true) (List.replicate 75 (zRound true))).map fun b =>
      decide (b.homer.state = .closing) && decide (b.ctrl.state = .stopped) && decide (pending b.calls = []) && roomB [] b.calls) =
      some true := by decide +kernel
  rw [Option.map_eq_some_iff] at h1
  obtain ⟨b, hb, h1⟩ := h1
  simp only [Bool.and_eq_true, decide_eq_true_eq] at h1
  obtain ⟨⟨⟨h1, h2⟩, h3⟩, h4⟩ := h1
  rcases hall _ _ _ _ b hb (roomB_sound _ _ h4) h2 h3 with h | h <;> rw [h1] at h <;> cases h

/-- The hypotheses of `homing_stuck` for this machine, with all continuations. -/
example (rounds : List Round) (hz : ∀ q ∈ sampledPorts rounds, q.d.getLsbD 0 = true) (b : Board loopKit)
    (h : Board.run loopTarget (zPorts true) rounds = some b) :
    (b.homer.state = .closing ∨ b.homer.state = .opening) ∧ (orders b.acts).length = 1 ∧ ∀ e, .push e ∈ b.acts → e = .homingStarted :=
  homing_stuck loopTarget (by decide) (a := 2) (i := 0) (by decide +kernel) (by decide) rfl (zPorts true) rounds
    (fun q hq => by rw [show pin 0 q = true from hz q hq]; decide) h

/-- And for the shipped configuration: Z comes first, its switch is input 0. -/
example : (HomingSpec.axes .cnc3axis).head? = some 2 ∧
    (2, HomingConfig.cnc3axis.homingDirection 2, Event.limitSwitchZMaxClosed, Event.limitSwitchZMaxOpened) ∈ HomingSpec.switches ∧
    inputEvents[0]? = some (.limitSwitchZMaxClosed, .limitSwitchZMaxOpened) := by decide +kernel

/-- The complete run of C63 satisfies the hypotheses of `homing_waits_partial`. -/
example : ∃ b, Board.run loopTarget (zPorts true) (List.replicate 12 (zRound false) ++ List.replicate 16 (zRound true)) = some b ∧
    NoOverflow b.calls ∧ b.ctrl.state = .stopped ∧ pending b.calls = [] ∧ b.homer.state = .found := by
  have h1 : ((Board.run loopTarget (zPorts true) (List.replicate 12 (zRound false) ++ List.replicate 16 (zRound true))).map fun b =>
      decide (b.homer.state = .found) && decide (b.ctrl.state = .stopped) && decide (pending b.calls = []) && roomB [] b.calls) =
      some true := by decide +kernel
  rw [Option.map_eq_some_iff] at h1
  obtain ⟨b, hb, h1⟩ := h1
  simp only [Bool.and_eq_true, decide_eq_true_eq] at h1
  exact ⟨b, hb, roomB_sound _ _ h1.2, h1.1.1.2, h1.1.2, h1.1.1.1⟩

end Moovr.Props
