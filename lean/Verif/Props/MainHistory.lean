import Verif.Lemmas.HomingReal
import Verif.Props.MotionCtrl
/-!
# The main program as a user of the motion controller (C88)

The main program never hangs, and all it does to the motion controller is a history of calls as in `Verif.Props.MotionCtrl`: the
theorems about all histories hold in the whole program.
-/
namespace Moovr.Props
open MotionSpec HomingSpec

/-- Two histories after each other. -/
theorem run_join {K : MotionKit} (ks₁ : List (Call K.Req K.Time K.Ovr)) {ks₂ : List (Call K.Req K.Time K.Ovr)} : ∀ {c c₁ c₂ : MotionCtrl K} {l₁ l₂},
    c.run ks₁ = some (c₁, l₁) → c₁.run ks₂ = some (c₂, l₂) → c.run (ks₁ ++ ks₂) = some (c₂, l₁ ++ l₂) := by
  induction ks₁ with
  | nil =>
    intro c c₁ c₂ l₁ l₂ h1 h2
    simp only [MotionCtrl.run, Option.some.injEq, Prod.mk.injEq] at h1
    obtain ⟨rfl, rfl⟩ := h1
    exact h2
  | cons k ks ih =>
    intro c c₁ c₂ l₁ l₂ h1 h2
    rw [MotionCtrl.run] at h1
    rw [List.cons_append, MotionCtrl.run]
    split at h1
    · simp at h1
    · rename_i c₀ x hx
      simp only [Option.map_eq_some_iff, Prod.exists, Prod.mk.injEq] at h1
      obtain ⟨c₃, l, h3, rfl, rfl⟩ := h1
      simp [ih h3 h2]

/-- The call on the motion controller that an action of homing stands for. -/
def callOf {K : MotionKit} (t : Target K) : HomingAct → Option (Call K.Req K.Time K.Ovr)
  | .stop => some .stop
  | .flush => some .flush
  | .append m => some (.append (t.request m))
  | .go => some .start
  | _ => none

/-- The state of the motion controller is the result of a history of calls: `initialize`, `resetMachinePosition`, and then exactly
the commands of homing in their order, with `n` calculations in between. -/
def HasHistory {K : MotionKit} (t : Target K) (b : Board K) (n : Nat) : Prop :=
  ∃ ks log, (MotionCtrl.fresh K).run ks = some (b.ctrl, log) ∧
    ks.filter (fun k => !k.isCalculate) = .configure t.maxTicks t.width :: .resetPosition :: b.acts.filterMap (callOf t) ∧
    ks.countP Call.isCalculate = n

/-! ## Proof -/

theorem exec_call {K : MotionKit} (t : Target K) (b : Board K) (x : HomingAct) :
    (callOf t x = none ∧ (b.exec t x).ctrl = b.ctrl) ∨
    ∃ k r, callOf t x = some k ∧ b.ctrl.call k = some ((b.exec t x).ctrl, r) ∧ k.isCalculate = false := by
  cases x <;> simp only [Board.exec]
  case stop => exact .inr ⟨.stop, _, rfl, by rw [Board.withCtrl_ctrl]; rfl, rfl⟩
  case flush => exact .inr ⟨.flush, _, rfl, by rw [Board.withCtrl_ctrl]; rfl, rfl⟩
  case append m => exact .inr ⟨.append (t.request m), _, rfl, by rw [Board.withCtrl_ctrl]; rfl, rfl⟩
  case go => exact .inr ⟨.start, _, rfl, by rw [Board.withCtrl_ctrl]; rfl, rfl⟩
  all_goals exact .inl ⟨rfl, by first | rfl | trivial⟩

theorem foldl_calls {K : MotionKit} (t : Target K) (l : List HomingAct) : ∀ b : Board K,
    ∃ ks log, b.ctrl.run ks = some ((l.foldl (Board.exec t) b).ctrl, log) ∧ ks = l.filterMap (callOf t) ∧
      ∀ k ∈ ks, k.isCalculate = false := by
  induction l with
  | nil => exact fun _ => ⟨[], [], rfl, rfl, by simp⟩
  | cons x l ih =>
    intro b
    obtain ⟨ks, log, h1, h2, h3⟩ := ih (b.exec t x)
    rcases exec_call t b x with ⟨e1, e2⟩ | ⟨k, r, e1, e2, e3⟩
    · rw [e2] at h1
      exact ⟨ks, log, h1, by rw [List.filterMap_cons_none e1, h2], h3⟩
    · refine ⟨k :: ks, (k, r) :: log, ?_, by rw [List.filterMap_cons_some e1, h2], ?_⟩
      · rw [MotionCtrl.run, e2]
        simp [h1]
      · intro k' hk'
        rcases List.mem_cons.1 hk' with rfl | hk'
        · exact e3
        · exact h3 k' hk'

theorem filter_other {K : MotionKit} {ks : List (Call K.Req K.Time K.Ovr)} (h : ∀ k ∈ ks, k.isCalculate = false) :
    ks.filter (fun k => !k.isCalculate) = ks ∧ ks.countP Call.isCalculate = 0 := by
  constructor
  · rw [List.filter_eq_self]; intro k hk; simp [h k hk]
  · rw [List.countP_eq_zero]; intro k hk; simp [h k hk]

theorem exec_acts {K : MotionKit} (t : Target K) (x : HomingAct) (b : Board K) : (b.exec t x).acts = b.acts := by
  cases x <;> simp only [Board.exec] <;> first | rfl | exact (Board.withCtrl_homer _ _).2.1

theorem foldl_acts {K : MotionKit} (t : Target K) (l : List HomingAct) : ∀ b : Board K, (l.foldl (Board.exec t) b).acts = b.acts := by
  induction l with
  | nil => exact fun _ => rfl
  | cons x l ih => intro b; rw [List.foldl_cons, ih, exec_acts]

theorem sample_acts {K : MotionKit} (b : Board K) (p : Ports) : (b.sample p).acts = b.acts := by
  unfold Board.sample
  have : ∀ (l : List Nat) (b : Board K), (l.foldl Board.sampleInput b).acts = b.acts := by
    intro l
    induction l with
    | nil => exact fun _ => rfl
    | cons i l ih =>
      intro b
      rw [List.foldl_cons, ih]
      unfold Board.sampleInput
      simp only
      split <;> rfl
  exact this _ _

theorem fill_acts {K : MotionKit} (k : Nat) : ∀ {b b' : Board K}, b.fill k = some b' → b'.acts = b.acts := by
  induction k with
  | zero =>
    intro b b' h
    simp only [Board.fill, Option.some.injEq] at h
    rw [h]
  | succ k ih =>
    intro b b' h
    unfold Board.fill at h
    split at h
    · cases h
    · exact (ih h).trans (Board.withCtrl_homer _ _).2.1

/-- Calculations return. -/
theorem fill_returns {K : MotionKit} (k : Nat) : ∀ (b : Board K), MotionCtrl.SInv b.ctrl → ∃ b', b.fill k = some b' := by
  induction k with
  | zero => exact fun b _ => ⟨b, rfl⟩
  | succ k ih =>
    intro b hb
    obtain ⟨c', e, ts, h1, h2, -⟩ := hb.calculate
    obtain ⟨b', hb'⟩ := ih (b.withCtrl c') (by rw [Board.withCtrl_ctrl]; exact h2)
    exact ⟨b', by rw [Board.fill, h1]; exact hb'⟩

theorem withHomer_history {K : MotionKit} (t : Target K) {b : Board K} {n : Nat} (h : HasHistory t b n) (r : Homer × List HomingAct) :
    HasHistory t (b.withHomer t r) n := by
  obtain ⟨ks, log, h1, h2, h3⟩ := h
  obtain ⟨ks', log', f1, f2, f3⟩ := foldl_calls t r.2 { b with homer := r.1, acts := b.acts ++ r.2 }
  refine ⟨ks ++ ks', log ++ log', run_join ks h1 f1, ?_, ?_⟩
  · rw [List.filter_append, h2, (filter_other f3).1, f2]
    show _ = _ :: _ :: ((r.2.foldl (Board.exec t) { b with homer := r.1, acts := b.acts ++ r.2 }).acts).filterMap _
    rw [foldl_acts, List.filterMap_append]
    rfl
  · rw [List.countP_append, h3, (filter_other f3).2]; rfl

theorem history_sInv {K : MotionKit} {t : Target K} {b : Board K} {n : Nat} (h : HasHistory t b n) : MotionCtrl.SInv b.ctrl := by
  obtain ⟨ks, log, h1, -⟩ := h
  obtain ⟨c, l, h2, h3, -⟩ := MotionCtrl.sInv_fresh.run ks
  rw [h1] at h2
  simp only [Option.some.injEq, Prod.mk.injEq] at h2
  rw [h2.1]
  exact h3

theorem loop_history {K : MotionKit} (t : Target K) {b : Board K} {n : Nat} (h : HasHistory t b n) (r : Round) :
    ∃ b', b.loop t r = some b' ∧ HasHistory t b' (n + r.calcs) := by
  obtain ⟨b₁, hb₁⟩ := fill_returns r.calcs b (history_sInv h)
  refine ⟨_, by rw [Board.loop, hb₁], ?_⟩
  have h1 : HasHistory t b₁ (n + r.calcs) := by
    obtain ⟨ks, log, g1, g2, g3⟩ := h
    obtain ⟨log', hl⟩ := Board.fill_run _ hb₁
    refine ⟨ks ++ List.replicate r.calcs .calculate, log ++ log', run_join ks g1 hl, ?_, ?_⟩
    · rw [List.filter_append, g2, fill_acts _ hb₁, List.filter_replicate_of_neg (by simp [Call.isCalculate])]
      simp
    · rw [List.countP_append, g3, List.countP_replicate]
      simp [Call.isCalculate]
  have h2 : HasHistory t (if r.expired then b₁.sample r.ports else b₁) (n + r.calcs) := by
    split
    · obtain ⟨ks, log, g1, g2, g3⟩ := h1
      exact ⟨ks, log, by rw [Board.sample_ctrl]; exact g1, by rw [sample_acts]; exact g2, g3⟩
    · exact h1
  generalize (if r.expired then b₁.sample r.ports else b₁) = b₂ at h2
  unfold Board.handle
  simp only
  split
  · exact withHomer_history t (b := (b₂.onQueue .hasEvents).onQueue .pop) h2 _
  · exact h2

theorem setup_history {K : MotionKit} (t : Target K) (p : Ports) : HasHistory t (Board.setup t p) 0 := by
  obtain ⟨c1, -, -, -, -, c5⟩ := Board.beforeHoming_spec t p
  rw [Board.setup_eq]
  refine withHomer_history t ?_ _
  refine ⟨[.configure t.maxTicks t.width, .resetPosition], [(.configure t.maxTicks t.width, ⟨[], none, []⟩), (.resetPosition, ⟨[], none, []⟩)], ?_, ?_, rfl⟩
  · rw [c1]; rfl
  · rw [c5]; rfl

/-! ## C88 -/

/-- **C88.** Whatever the inputs do and however often the step buffer asks for calculations, each iteration of the main program
returns; and the state of the motion controller is always the result of `initialize`, `resetMachinePosition`, the commands that homing
has given, in this order, and the calculations. So the theorems about all histories of calls (C22–C27, C66) hold in the whole program. -/
theorem loop_motion_history {K : MotionKit} (t : Target K) (p : Ports) (rounds : List Round) :
    ∃ b, Board.run t p rounds = some b ∧ HasHistory t b (rounds.map Round.calcs).sum := by
  have key : ∀ (rs : List Round) (b : Board K) (n : Nat), HasHistory t b n →
      ∃ b', b.loops t rs = some b' ∧ HasHistory t b' (n + (rs.map Round.calcs).sum) := by
    intro rs
    induction rs with
    | nil => exact fun b n h => ⟨b, rfl, h⟩
    | cons r rs ih =>
      intro b n h
      obtain ⟨b₁, h1, h2⟩ := loop_history t h r
      obtain ⟨b', h3, h4⟩ := ih b₁ _ h2
      refine ⟨b', by rw [Board.loops, h1]; exact h3, ?_⟩
      rw [List.map_cons, List.sum_cons, ← Nat.add_assoc]
      exact h4
  have := key rounds _ 0 (setup_history t p)
  rw [Nat.zero_add] at this
  exact this

/-- For example, in the whole program the position counters are the net numbers of ordered steps since switching on. -/
example {K : MotionKit} (t : Target K) (p : Ports) (rounds : List Round) :
    ∃ b ks log, Board.run t p rounds = some b ∧ (MotionCtrl.fresh K).run ks = some (b.ctrl, log) ∧
      b.ctrl.getMachinePosition = (List.range K.n).map fun a => positionAfter a 0 log := by
  obtain ⟨b, h1, ks, log, h2, -⟩ := loop_motion_history t p rounds
  exact ⟨b, ks, log, h1, h2, motion_position_is_net_steps ks b.ctrl log h2⟩

end Moovr.Props
