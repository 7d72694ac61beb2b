import Verif.Spec.Homing
import Mathlib.Tactic.Ring
/-!
# Lemmas about the homing controller
-/
namespace Moovr.Homer
open HomingSpec
variable {cfg : HomingConfig}

/-- The axes to be homed among the next `k` entries of the sequence. -/
def axesFrom (cfg : HomingConfig) : Nat → Nat → List Nat
  | 0, _ => []
  | k + 1, i => if Homeable cfg (cfg.homingSequence i) then cfg.homingSequence i :: axesFrom cfg k (i + 1) else axesFrom cfg k (i + 1)

theorem axesFrom_eq (k : Nat) : ∀ i, axesFrom cfg k i =
    ((List.range k).map fun j => cfg.homingSequence (i + j)).filter (Homeable cfg ·) := by
  induction k with
  | zero => intro i; rfl
  | succ k ih =>
    intro i
    rw [List.range_succ_eq_map, List.map_cons, List.filter_cons, axesFrom, ih (i + 1), List.map_map]
    have : (fun j => cfg.homingSequence (i + j)) ∘ Nat.succ = fun j => cfg.homingSequence (i + 1 + j) := by
      funext j; simp only [Function.comp, Nat.succ_eq_add_one]; congr 1; omega
    rw [this]
    by_cases h : Homeable cfg (cfg.homingSequence i)
    · simp [h]
    · simp [h]

theorem axes_eq : axes cfg = axesFrom cfg cfg.nmbrHomingAxis 0 := by
  rw [axesFrom_eq]; simp [axes]

/-- The members describing the selected axis are right. -/
structure Selected (cfg : HomingConfig) (h : Homer) : Prop where
  homeable : Homeable cfg h.currentHomingAxis
  switch : h.theLimitSwitch = switchOf cfg h.currentHomingAxis
  closes : cfg.n ≤ 3 → ∀ e, h.limitSwitchClose = e ↔ Closes cfg h.currentHomingAxis e
  opens : cfg.n ≤ 3 → ∀ e, h.limitSwitchOpen = e ↔ Opens cfg h.currentHomingAxis e

theorem tryAxis_spec (h : Homer) :
    (tryAxis cfg h).1.state = h.state ∧ (tryAxis cfg h).1.homingSequenceIndex = h.homingSequenceIndex ∧
    (Homeable cfg (cfg.homingSequence h.homingSequenceIndex) → (tryAxis cfg h).2 = true ∧ Selected cfg (tryAxis cfg h).1 ∧
      (tryAxis cfg h).1.currentHomingAxis = cfg.homingSequence h.homingSequenceIndex) ∧
    (¬ Homeable cfg (cfg.homingSequence h.homingSequenceIndex) → (tryAxis cfg h).2 = false) := by
  unfold tryAxis
  generalize cfg.homingSequence h.homingSequenceIndex = a
  by_cases h1 : a < cfg.n
  · cases h2 : cfg.homingDirection a
    · cases h3 : cfg.hasLimitsMin a
      · simp [h1, h2, h3, Homeable]
      · refine ⟨by simp [h1, h2, h3], by simp [h1, h2, h3], fun hh => ⟨by simp [h1, h2, h3], ?_, by simp [h1, h2, h3]⟩,
          fun hh => absurd (⟨h1, by simp [h2], fun _ => h3⟩ : Homeable cfg a) hh⟩
        simp only [h1, h2, h3, if_true, Bool.false_eq_true, if_false]
        refine ⟨hh, by simp [switchOf, h2], fun hn e => ?_, fun hn e => ?_⟩ <;>
        · simp only [Closes, Opens, h2]
          have : a = 0 ∨ a = 1 ∨ a = 2 := by omega
          rcases this with rfl | rfl | rfl <;> simp [switches, minEvents, eq_comm]
    · cases h3 : cfg.hasLimitsMax a
      · simp [h1, h2, h3, Homeable]
      · refine ⟨by simp [h1, h2, h3], by simp [h1, h2, h3], fun hh => ⟨by simp [h1, h2, h3], ?_, by simp [h1, h2, h3]⟩,
          fun hh => absurd (⟨h1, fun _ => h3, by simp [h2]⟩ : Homeable cfg a) hh⟩
        simp only [h1, h2, h3, if_true]
        refine ⟨hh, by simp [switchOf, h2], fun hn e => ?_, fun hn e => ?_⟩ <;>
        · simp only [Closes, Opens, h2]
          have : a = 0 ∨ a = 1 ∨ a = 2 := by omega
          rcases this with rfl | rfl | rfl <;> simp [switches, maxEvents, eq_comm]
  · simp [h1, Homeable]

theorem selectLoop_spec (k : Nat) : ∀ h : Homer, (selectLoop cfg k h).1.state = h.state ∧
    (axesFrom cfg k h.homingSequenceIndex = [] → (selectLoop cfg k h).2 = false) ∧
    (∀ a as, axesFrom cfg k h.homingSequenceIndex = a :: as → (selectLoop cfg k h).2 = true ∧
      Selected cfg (selectLoop cfg k h).1 ∧ (selectLoop cfg k h).1.currentHomingAxis = a ∧
      ∃ k', as = axesFrom cfg k' ((selectLoop cfg k h).1.homingSequenceIndex + 1) ∧
        k' + (selectLoop cfg k h).1.homingSequenceIndex + 1 = k + h.homingSequenceIndex) := by
  induction k with
  | zero => intro h; exact ⟨rfl, fun _ => rfl, fun a as e => by simp [axesFrom] at e⟩
  | succ k ih =>
    intro h
    obtain ⟨s1, s2, s3, s4⟩ := tryAxis_spec (cfg := cfg) h
    by_cases hh : Homeable cfg (cfg.homingSequence h.homingSequenceIndex)
    · obtain ⟨t1, t2, t3⟩ := s3 hh
      have : selectLoop cfg (k + 1) h = ((tryAxis cfg h).1, true) := by simp [selectLoop, t1]
      rw [this]
      refine ⟨s1, fun e => by simp [axesFrom, hh] at e, fun a as e => ?_⟩
      simp only [axesFrom, hh, if_true, List.cons.injEq] at e
      exact ⟨rfl, t2, by rw [t3, e.1], k, by simp only [s2]; exact e.2.symm, by simp only [s2]; omega⟩
    · have t1 := s4 hh
      have : selectLoop cfg (k + 1) h =
          selectLoop cfg k { (tryAxis cfg h).1 with homingSequenceIndex := (tryAxis cfg h).1.homingSequenceIndex + 1 } := by
        simp [selectLoop, t1]
      rw [this]
      obtain ⟨u1, u2, u3⟩ := ih { (tryAxis cfg h).1 with homingSequenceIndex := (tryAxis cfg h).1.homingSequenceIndex + 1 }
      simp only [s2] at u1 u2 u3 ⊢
      have e' : axesFrom cfg (k + 1) h.homingSequenceIndex = axesFrom cfg k (h.homingSequenceIndex + 1) := by
        simp [axesFrom, hh]
      rw [e']
      refine ⟨u1.trans s1, u2, fun a as e => ?_⟩
      obtain ⟨v1, v2, v3, k', v4, v5⟩ := u3 a as e
      exact ⟨v1, v2, v3, k', v4, by omega⟩

/-- The axes still to be homed when the sequence stands at `i`. -/
def toDo (cfg : HomingConfig) (i : Nat) : List Nat := axesFrom cfg (cfg.nmbrHomingAxis - i) i

theorem selectAxis_spec (h : Homer) : (selectAxis cfg h).1.state = h.state ∧
    (toDo cfg h.homingSequenceIndex = [] → (selectAxis cfg h).2 = false) ∧
    (∀ a as, toDo cfg h.homingSequenceIndex = a :: as → (selectAxis cfg h).2 = true ∧
      Selected cfg (selectAxis cfg h).1 ∧ (selectAxis cfg h).1.currentHomingAxis = a ∧
      as = toDo cfg ((selectAxis cfg h).1.homingSequenceIndex + 1) ∧
      (selectAxis cfg h).1.homingSequenceIndex < cfg.nmbrHomingAxis) := by
  obtain ⟨s1, s2, s3⟩ := selectLoop_spec (cfg := cfg) (cfg.nmbrHomingAxis - h.homingSequenceIndex) h
  refine ⟨s1, s2, fun a as e => ?_⟩
  obtain ⟨t1, t2, t3, k, t4, t5⟩ := s3 a as e
  have hle : h.homingSequenceIndex < cfg.nmbrHomingAxis := by
    by_contra hc
    have : cfg.nmbrHomingAxis - h.homingSequenceIndex = 0 := by omega
    rw [toDo, this] at e; simp [axesFrom] at e
  have hi : (selectAxis cfg h).1.homingSequenceIndex = (selectLoop cfg (cfg.nmbrHomingAxis - h.homingSequenceIndex) h).1.homingSequenceIndex := rfl
  refine ⟨t1, t2, t3, ?_, ?_⟩
  · rw [t4, toDo, hi]
    congr 1
    omega
  · rw [hi]; omega

theorem toDo_zero : toDo cfg 0 = axes cfg := by rw [axes_eq, toDo]; rfl

theorem nextAxis_spec (h : Homer) (hi : h.homingSequenceIndex < cfg.nmbrHomingAxis) : (nextAxis cfg h).1.state = h.state ∧
    (toDo cfg (h.homingSequenceIndex + 1) = [] → (nextAxis cfg h).2 = false) ∧
    (∀ a as, toDo cfg (h.homingSequenceIndex + 1) = a :: as → (nextAxis cfg h).2 = true ∧
      Selected cfg (nextAxis cfg h).1 ∧ (nextAxis cfg h).1.currentHomingAxis = a ∧
      as = toDo cfg ((nextAxis cfg h).1.homingSequenceIndex + 1) ∧
      (nextAxis cfg h).1.homingSequenceIndex < cfg.nmbrHomingAxis) := by
  have : nextAxis cfg h = selectAxis cfg { h with homingSequenceIndex := h.homingSequenceIndex + 1 } := by simp [nextAxis, hi]
  rw [this]
  exact selectAxis_spec { h with homingSequenceIndex := h.homingSequenceIndex + 1 }

/-! ## The moves -/

theorem approach_move (a : Nat) (p : Nat → Int) :
    Approach cfg a ⟨p, a, if cfg.homingDirection a then cfg.sMax a else -1 * cfg.sMax a, cfg.vHoming⟩ := by
  refine ⟨rfl, ?_, rfl⟩
  cases h : cfg.homingDirection a <;> simp [sign, h]

theorem release_move (a : Nat) (p : Nat → Int) :
    Release cfg a ⟨p, a, if cfg.homingDirection a then -1 * cfg.sMax a else cfg.sMax a, cfg.vHomingSlow⟩ := by
  refine ⟨rfl, ?_, rfl⟩
  cases h : cfg.homingDirection a <;> simp [sign, h]

theorem offset_move (a : Nat) (p : Nat → Int) :
    Offset cfg a ⟨p, a, if cfg.homingDirection a then -1 * cfg.homingOffset a else cfg.homingOffset a, cfg.vHoming⟩ := by
  refine ⟨rfl, ?_, rfl⟩
  cases h : cfg.homingDirection a <;> simp [sign, h]

/-! ## The order -/

theorem axisHomed_mono {a : Nat} {t t' : List HomingAct} (h : AxisHomed cfg a t) (hs : List.Sublist t t') : AxisHomed cfg a t' := by
  obtain ⟨x, e, m, h1, h2, h3, h4⟩ := h
  exact ⟨x, e, m, h1, h2, h3, h4.trans hs⟩

theorem homed_snoc {a : Nat} {t' : List HomingAct} (h' : AxisHomed cfg a t') :
    ∀ {as : List Nat} {t : List HomingAct}, HomedInOrder cfg as t → HomedInOrder cfg (as ++ [a]) (t ++ t') := by
  intro as
  induction as with
  | nil =>
    intro t _
    exact ⟨t ++ t', [], by simp, axisHomed_mono h' (List.sublist_append_right _ _), trivial⟩
  | cons b bs ih =>
    rintro t ⟨t₁, t₂, rfl, h1, h2⟩
    exact ⟨t₁, t₂ ++ t', by simp, h1, ih h2⟩

/-! ## The invariant -/

/-- A statement about every action of a trace: what came before, the action, what comes after. -/
def Each (P : List HomingAct → HomingAct → List HomingAct → Prop) (t acts : List HomingAct) : Prop :=
  ∀ p x q, acts = p ++ x :: q → P (t ++ p) x q

theorem each_nil {P t} : Each P t [] := by intro p x q h; simp at h

theorem each_cons {P t a as} (h : P t a as) (h' : Each P (t ++ [a]) as) : Each P t (a :: as) := by
  intro p x q e
  cases p with
  | nil => simp only [List.nil_append, List.cons.injEq] at e; obtain ⟨rfl, rfl⟩ := e; simpa using h
  | cons b p =>
    simp only [List.cons_append, List.cons.injEq] at e
    obtain ⟨rfl, e⟩ := e
    simpa using h' p x q e

/-- Completion is reported only after all axes were homed in order, since the last start. -/
def Completed (cfg : HomingConfig) (t : List HomingAct) : Prop :=
  ∃ before since, t = before ++ .started :: since ∧ HomingAct.started ∉ since ∧ HomedInOrder cfg (axes cfg) since

/-- A move is justified, commanded after a standstill and a flush, and started. -/
def MoveOk (cfg : HomingConfig) (t : List HomingAct) (m : HomingMove) (q : List HomingAct) : Prop :=
  (∃ a ∈ axes cfg, ∃ t', t = t' ++ [.flush] ∧ Justified cfg t' a m ∧ Still t') ∧ ∃ q', q = .go :: q'

/-- Both, for every action. -/
def Good (cfg : HomingConfig) (t : List HomingAct) (x : HomingAct) (q : List HomingAct) : Prop :=
  (x = .push .homingCompleted → Completed cfg t) ∧ ∀ m, x = .append m → MoveOk cfg t m q

theorem good_other {t x q} (h1 : x ≠ .push .homingCompleted) (h2 : ¬ IsMove x) : Good cfg t x q :=
  ⟨fun h => absurd h h1, fun m h => by subst h; exact absurd trivial h2⟩

/-- What happened to the axis being homed. -/
def Stage (cfg : HomingConfig) (h : Homer) (u : List HomingAct) : Prop :=
  match h.state with
  | .lost | .found | .stopping => True
  | .closing => ∃ p m q, u = p ++ .append m :: q ∧ Approach cfg h.currentHomingAxis m ∧ ∀ x ∈ q, ¬ IsMove x
  | .closedWaitForStop => ∃ p m q e, u = p ++ .append m :: q ∧ Approach cfg h.currentHomingAxis m ∧ (∀ x ∈ q, ¬ IsMove x) ∧
      Closes cfg h.currentHomingAxis e ∧ List.Sublist [.handled e, .stop] q
  | .opening => ∃ p m q x, u = p ++ .append m :: q ∧ Release cfg h.currentHomingAxis m ∧ (∀ x ∈ q, ¬ IsMove x) ∧
      SeesClosed cfg h.currentHomingAxis x ∧ x ∈ p
  | .openedWaitForStop => ∃ p m q x e, u = p ++ .append m :: q ∧ Release cfg h.currentHomingAxis m ∧ (∀ x ∈ q, ¬ IsMove x) ∧
      SeesClosed cfg h.currentHomingAxis x ∧ x ∈ p ∧ Opens cfg h.currentHomingAxis e ∧ List.Sublist [.handled e, .stop] q
  | .offsettingWaitForStop => ∃ p m q x e, u = p ++ .append m :: q ∧ Offset cfg h.currentHomingAxis m ∧
      SeesClosed cfg h.currentHomingAxis x ∧ Opens cfg h.currentHomingAxis e ∧ List.Sublist [x, .handled e] p ∧
      HomingAct.go ∈ q

/-- What happened since the last start: some axes were homed, then `u` happened to the current axis. -/
structure Since (cfg : HomingConfig) (h : Homer) (t u : List HomingAct) : Prop where
  trace : ∃ before done s, t = before ++ .started :: (s ++ u) ∧ HomingAct.started ∉ s ∧ HomingAct.started ∉ u ∧
    axes cfg = done ++ h.currentHomingAxis :: toDo cfg (h.homingSequenceIndex + 1) ∧ HomedInOrder cfg done s
  selected : Selected cfg h
  index : h.homingSequenceIndex < cfg.nmbrHomingAxis

/-- The invariant. -/
def Inv (cfg : HomingConfig) (h : Homer) (t : List HomingAct) : Prop :=
  (h.state ≠ .lost → h.state ≠ .found → ∃ u, Since cfg h t u ∧ Stage cfg h u) ∧ (axes cfg = [] → h.state = .lost)

theorem Since.mem {h : Homer} {t u} (hs : Since cfg h t u) : h.currentHomingAxis ∈ axes cfg := by
  obtain ⟨b, d, s, -, -, -, e, -⟩ := hs.trace
  rw [e]; simp

theorem Since.ne {h : Homer} {t u} (hs : Since cfg h t u) : axes cfg ≠ [] := List.ne_nil_of_mem hs.mem

theorem Since.more {h : Homer} {t u v} (hs : Since cfg h t u) (hv : HomingAct.started ∉ v) : Since cfg h (t ++ v) (u ++ v) := by
  obtain ⟨b, d, s, e1, e2, e3, e4, e5⟩ := hs.trace
  exact ⟨⟨b, d, s, by rw [e1]; simp, e2, by simp [e3, hv], e4, e5⟩, hs.selected, hs.index⟩

theorem Since.state {h : Homer} {t u} (hs : Since cfg h t u) (s : HomingState) : Since cfg { h with state := s } t u :=
  ⟨hs.trace, ⟨hs.selected.homeable, hs.selected.switch, hs.selected.closes, hs.selected.opens⟩, hs.index⟩

/-- Actions that are no moves keep the stage. -/
theorem Stage.more {h : Homer} {u v} (hs : Stage cfg h u) (hv : ∀ x ∈ v, ¬ IsMove x) : Stage cfg h (u ++ v) := by
  have hm : ∀ {q : List HomingAct}, (∀ x ∈ q, ¬ IsMove x) → ∀ x ∈ q ++ v, ¬ IsMove x := by
    intro q hq x hx
    rcases List.mem_append.1 hx with hx | hx
    · exact hq x hx
    · exact hv x hx
  unfold Stage at hs ⊢
  split at hs
  · trivial
  · trivial
  · trivial
  · obtain ⟨p, m, q, rfl, h1, h2⟩ := hs
    exact ⟨p, m, q ++ v, by simp, h1, hm h2⟩
  · obtain ⟨p, m, q, e, rfl, h1, h2, h3, h4⟩ := hs
    exact ⟨p, m, q ++ v, e, by simp, h1, hm h2, h3, h4.trans (List.sublist_append_left _ _)⟩
  · obtain ⟨p, m, q, x, rfl, h1, h2, h3, h4⟩ := hs
    exact ⟨p, m, q ++ v, x, by simp, h1, hm h2, h3, h4⟩
  · obtain ⟨p, m, q, x, e, rfl, h1, h2, h3, h4, h5, h6⟩ := hs
    exact ⟨p, m, q ++ v, x, e, by simp, h1, hm h2, h3, h4, h5, h6.trans (List.sublist_append_left _ _)⟩
  · obtain ⟨p, m, q, x, e, rfl, h1, h2, h3, h4, h5⟩ := hs
    exact ⟨p, m, q ++ v, x, e, by simp, h1, h2, h3, h4, by simp [h5]⟩

/-- The last move and what came after it, in the whole trace. -/
theorem Since.lastMove {h : Homer} {t u p m q} (hs : Since cfg h t u) (hu : u = p ++ .append m :: q) (hq : ∀ x ∈ q, ¬ IsMove x)
    (e : Event) : LastMove (t ++ [.handled e]) m (q ++ [.handled e]) := by
  obtain ⟨b, d, s, e1, -, e3, -, -⟩ := hs.trace
  refine ⟨⟨b ++ .started :: (s ++ p), by rw [e1, hu]; simp⟩, fun x hx => ?_⟩
  rcases List.mem_append.1 hx with hx | hx
  · refine ⟨hq x hx, ?_⟩
    rintro rfl
    exact e3 (by rw [hu]; simp [hx])
  · rw [List.mem_singleton.1 hx]; exact ⟨id, by simp⟩

/-- Selecting the direction of the next move from the switch. -/
theorem approach_inv {env : HomingEnv} {h : Homer} {t u : List HomingAct} (hs : Since cfg h t u)
    (ht : Still t) : Inv cfg (approach cfg env h).1 (t ++ (approach cfg env h).2) ∧
      Each (Good cfg) t (approach cfg env h).2 := by
  have hsel := hs.selected
  have hsw := hsel.switch
  have hst : ∀ b, Still (t ++ [.sawClosed (switchOf cfg h.currentHomingAxis) b]) := by
    obtain ⟨p, x, q, rfl, h1, h2⟩ := ht
    exact fun b => ⟨p, x, q ++ [.sawClosed (switchOf cfg h.currentHomingAxis) b], by simp, h1, by simp [h2]⟩
  unfold approach
  rw [hsw]
  cases hc : env.closed (switchOf cfg h.currentHomingAxis)
  · refine ⟨?_, ?_⟩
    · simp only [goTo, Bool.false_eq_true, if_false, enterState]
      refine ⟨fun _ _ => ?_, fun he => absurd he hs.ne⟩
      refine ⟨_, (hs.state _).more ?_, _, _, [.go], (List.append_assoc u [_, HomingAct.flush] (HomingAct.append _ :: [HomingAct.go])).symm, approach_move _ _, ?_⟩
      · simp
      · simp [IsMove]
    · simp only [goTo, Bool.false_eq_true, if_false, enterState]
      refine each_cons (good_other (by simp) (by simp [IsMove])) (each_cons (good_other (by simp) (by simp [IsMove])) (each_cons ⟨by simp, ?_⟩
        (each_cons (good_other (by simp) (by simp [IsMove])) each_nil)))
      intro m e
      injection e with e
      subst e
      exact ⟨⟨_, hs.mem, _, rfl, .inl ⟨approach_move _ _, _, rfl⟩, hst _⟩, [], rfl⟩
  · refine ⟨?_, ?_⟩
    · simp only [goTo, if_true, enterState]
      refine ⟨fun _ _ => ?_, fun he => absurd he hs.ne⟩
      refine ⟨_, (hs.state _).more ?_, _, _, [.go], .sawClosed (switchOf cfg h.currentHomingAxis) true,
        (List.append_assoc u [_, HomingAct.flush] (HomingAct.append _ :: [HomingAct.go])).symm, release_move _ _, ?_, .inl rfl, ?_⟩
      · simp
      · simp [IsMove]
      · simp
    · simp only [goTo, if_true, enterState]
      refine each_cons (good_other (by simp) (by simp [IsMove])) (each_cons (good_other (by simp) (by simp [IsMove])) (each_cons ⟨by simp, ?_⟩
        (each_cons (good_other (by simp) (by simp [IsMove])) each_nil)))
      intro m e
      injection e with e
      subst e
      exact ⟨⟨_, hs.mem, _, rfl, .inr (.inl ⟨release_move _ _, _, rfl⟩), hst _⟩, [], rfl⟩

theorem each_append {P t as bs} (h : Each P t as) (h' : Each P (t ++ as) bs)
    (hp : ∀ t x q q', P t x q → P t x (q ++ q')) : Each P t (as ++ bs) := by
  intro p x q e
  rw [List.append_eq_append_iff] at e
  rcases e with ⟨r, rfl, e⟩ | ⟨r, e1, e2⟩
  · have := h' r x q e
    simpa using this
  · cases r with
    | nil =>
      simp only [List.append_nil, List.nil_append] at e1 e2
      subst e1
      have := h' [] x q (by simpa using e2.symm)
      simpa using this
    | cons y r =>
      simp only [List.cons_append, List.cons.injEq] at e2
      obtain ⟨rfl, rfl⟩ := e2
      exact hp _ _ _ _ (h p x r e1)

theorem good_more {t x q q'} (h : Good cfg t x q) : Good cfg t x (q ++ q') := by
  refine ⟨h.1, fun m e => ?_⟩
  obtain ⟨h1, q'', rfl⟩ := h.2 m e
  exact ⟨h1, _, rfl⟩

theorem start_inv {env : HomingEnv} {h : Homer} {t : List HomingAct} (hi : Inv cfg h t) :
    Inv cfg (start cfg env h).1 (t ++ (start cfg env h).2) ∧ Each (Good cfg) t (start cfg env h).2 := by
  obtain ⟨s1, s2, s3⟩ := selectAxis_spec (cfg := cfg) { h with homingSequenceIndex := 0 }
  simp only [toDo_zero] at s1 s2 s3
  unfold start
  rcases ha : axes cfg with _ | ⟨a, as⟩
  · have hl := hi.2 ha
    simp only [s2 ha, Bool.false_eq_true, if_false]
    refine ⟨⟨fun hc => absurd (s1.trans hl) hc, fun _ => s1.trans hl⟩, ?_⟩
    exact each_cons (good_other (by simp) (by simp [IsMove])) (each_cons (good_other (by simp) (by simp [IsMove])) each_nil)
  · obtain ⟨t1, t2, t3, t4, t5⟩ := s3 a as ha
    simp only [t1, if_true]
    generalize (selectAxis cfg { h with homingSequenceIndex := 0 }).1 = h' at t2 t3 t4 t5
    have hs : ∀ b, Since cfg h' (t ++ [.started, .push .homingStarted, .sawRunning b]) [.push .homingStarted, .sawRunning b] :=
      fun b => ⟨⟨t, [], [], by simp, by simp, by simp, by rw [ha, t3, t4]; simp, trivial⟩, t2, t5⟩
    have he : ∀ b, Each (Good cfg) t [.started, .push .homingStarted, .sawRunning b] := fun b =>
      each_cons (good_other (by simp) (by simp [IsMove])) (each_cons (good_other (by simp) (by simp [IsMove]))
        (each_cons (good_other (by simp) (by simp [IsMove])) each_nil))
    cases hr : env.running
    · simp only [Bool.false_eq_true, if_false]
      obtain ⟨i1, i2⟩ := approach_inv (env := env) (hs false) ⟨t ++ [.started, .push .homingStarted], _, [], by simp, .inr rfl, by simp⟩
      exact ⟨by rw [← List.append_assoc]; exact i1, each_append (he false) i2 fun _ _ _ _ => good_more⟩
    · simp only [if_true, goTo, enterState]
      refine ⟨⟨fun _ _ => ⟨[.push .homingStarted, .sawRunning true] ++ [.stop], ?_, trivial⟩, fun hc => absurd (ha.symm.trans hc) (by simp)⟩, each_append (he true)
        (each_cons (good_other (by simp) (by simp [IsMove])) each_nil) fun _ _ _ _ => good_more⟩
      rw [← List.append_assoc]
      exact ((hs true).state _).more (by simp)

theorem event_inv (hn : cfg.n ≤ 3) {env : HomingEnv} {h : Homer} {t : List HomingAct} (e : Event) (hi : Inv cfg h t) :
    Inv cfg (handleEvents cfg env h e).1 (t ++ (handleEvents cfg env h e).2) ∧ Each (Good cfg) t (handleEvents cfg env h e).2 := by
  have one : ∀ t, Each (Good cfg) t [.handled e] := fun t => each_cons (good_other (by simp) (by simp [IsMove])) each_nil
  have same : Inv cfg h (t ++ [.handled e]) ∧ Each (Good cfg) t [.handled e] := by
    refine ⟨⟨fun h1 h2 => ?_, hi.2⟩, one t⟩
    obtain ⟨u, hs, hu⟩ := hi.1 h1 h2
    exact ⟨_, hs.more (by simp), hu.more (by simp [IsMove])⟩
  have still : e = .motionStopped → Still (t ++ [.handled e]) := by rintro rfl; exact ⟨t, _, [], rfl, .inl rfl, by simp⟩
  have pre : ∀ {s : HomingState}, h.state = s → s ≠ .lost → s ≠ .found → ∃ u, Since cfg h t u ∧ Stage cfg h u := by
    rintro s rfl h1 h2
    exact hi.1 h1 h2
  have cons : ∀ (t acts : List HomingAct), Each (Good cfg) (t ++ [.handled e]) acts → Each (Good cfg) t (.handled e :: acts) :=
    fun t acts h => each_cons (good_other (by simp) (by simp [IsMove])) h
  have assoc : ∀ acts : List HomingAct, t ++ .handled e :: acts = (t ++ [.handled e]) ++ acts := by simp
  unfold handleEvents react
  cases hst : h.state <;> simp only
  · exact same
  · -- stopping
    split_ifs with he
    · obtain ⟨u, hs, -⟩ := pre hst (by simp) (by simp)
      obtain ⟨i1, i2⟩ := approach_inv (env := env) (hs.more (v := [.handled e]) (by simp)) (still he)
      exact ⟨by rw [assoc]; exact i1, cons _ _ i2⟩
    · exact same
  · -- closing
    split_ifs with he
    · obtain ⟨u, hs, hu⟩ := pre hst (by simp) (by simp)
      simp only [Stage, hst] at hu
      obtain ⟨p, m, q, rfl, h1, h2⟩ := hu
      have hc := (hs.selected.closes hn e).1 he
      simp only [goTo, enterState]
      refine ⟨⟨fun _ _ => ⟨_, (hs.state _).more (v := [.handled e, .stop]) (by simp), ?_⟩, fun ha => absurd ha hs.ne⟩,
        cons _ _ (each_cons (good_other (by simp) (by simp [IsMove])) each_nil)⟩
      refine ⟨p, m, q ++ [.handled e, .stop], e, by simp, h1, ?_, hc, List.sublist_append_right _ _⟩
      intro x hx
      rcases List.mem_append.1 hx with hx | hx
      · exact h2 x hx
      · simp only [List.mem_cons, List.not_mem_nil, or_false] at hx
        rcases hx with rfl | rfl <;> simp [IsMove]
    · exact same
  · -- closedWaitForStop
    split_ifs with he
    · obtain ⟨u, hs, hu⟩ := pre hst (by simp) (by simp)
      simp only [Stage, hst] at hu
      obtain ⟨p, m, q, c, rfl, h1, h2, h3, h4⟩ := hu
      have hl := hs.lastMove rfl h2 e
      simp only [goTo, enterState]
      refine ⟨⟨fun _ _ => ⟨_, (hs.state _).more (v := [.handled e, .flush, .append _, .go]) (by simp), ?_⟩, fun ha => absurd ha hs.ne⟩,
        cons _ _ (each_cons (good_other (by simp) (by simp [IsMove])) (each_cons ⟨by simp, ?_⟩
          (each_cons (good_other (by simp) (by simp [IsMove])) each_nil)))⟩
      · refine ⟨p ++ .append m :: (q ++ [.handled e, .flush]), _, [.go], .handled c, by simp, release_move _ env.position, by simp [IsMove],
          .inr ⟨c, h3, rfl⟩, ?_⟩
        have : HomingAct.handled c ∈ q := h4.subset (by simp)
        simp [this]
      · intro m' em
        injection em with em
        subst em
        refine ⟨⟨_, hs.mem, _, rfl, .inr (.inr (.inl ⟨release_move _ _, m, _, c, hl, h1, h3, ?_⟩)), still he⟩, [], rfl⟩
        have := h4.append (List.Sublist.refl [.handled e])
        rw [he] at this ⊢
        exact this
    · exact same
  · -- opening
    split_ifs with he
    · obtain ⟨u, hs, hu⟩ := pre hst (by simp) (by simp)
      simp only [Stage, hst] at hu
      obtain ⟨p, m, q, x, rfl, h1, h2, h3, h4⟩ := hu
      have hc := (hs.selected.opens hn e).1 he
      simp only [goTo, enterState]
      refine ⟨⟨fun _ _ => ⟨_, (hs.state _).more (v := [.handled e, .stop]) (by simp), ?_⟩, fun ha => absurd ha hs.ne⟩,
        cons _ _ (each_cons (good_other (by simp) (by simp [IsMove])) each_nil)⟩
      refine ⟨p, m, q ++ [.handled e, .stop], x, e, by simp, h1, ?_, h3, h4, hc, List.sublist_append_right _ _⟩
      intro x hx
      rcases List.mem_append.1 hx with hx | hx
      · exact h2 x hx
      · simp only [List.mem_cons, List.not_mem_nil, or_false] at hx
        rcases hx with rfl | rfl <;> simp [IsMove]
    · exact same
  · -- openedWaitForStop
    split_ifs with he
    · obtain ⟨u, hs, hu⟩ := pre hst (by simp) (by simp)
      simp only [Stage, hst] at hu
      obtain ⟨p, m, q, x, c, rfl, h1, h2, h3, h4, h5, h6⟩ := hu
      have hl := hs.lastMove rfl h2 e
      simp only [goTo, enterState]
      refine ⟨⟨fun _ _ => ⟨_, (hs.state _).more (v := [.handled e, .flush, .append _, .go]) (by simp), ?_⟩, fun ha => absurd ha hs.ne⟩,
        cons _ _ (each_cons (good_other (by simp) (by simp [IsMove])) (each_cons ⟨by simp, ?_⟩
          (each_cons (good_other (by simp) (by simp [IsMove])) each_nil)))⟩
      · refine ⟨p ++ .append m :: (q ++ [.handled e, .flush]), _, [.go], x, c, by simp, offset_move _ env.position, h3, h5, ?_, by simp⟩
        have hq : List.Sublist [.handled c] q := List.Sublist.trans (List.sublist_append_left [HomingAct.handled c] [HomingAct.stop]) h6
        have hx : List.Sublist [x] p := List.singleton_sublist.2 h4
        exact (hx.append ((hq.trans (List.sublist_append_left _ _)).trans (List.sublist_cons_self _ _)))
      · intro m' em
        injection em with em
        subst em
        refine ⟨⟨_, hs.mem, _, rfl, .inr (.inr (.inr ⟨offset_move _ _, m, _, c, hl, h1, h5, ?_⟩)), still he⟩, [], rfl⟩
        have := h6.append (List.Sublist.refl [.handled e])
        rw [he] at this ⊢
        exact this
    · exact same
  · -- offsettingWaitForStop
    split_ifs with he hx
    · obtain ⟨u, hs, hu⟩ := pre hst (by simp) (by simp)
      simp only [Stage, hst] at hu
      obtain ⟨n1, n2, n3⟩ := nextAxis_spec (cfg := cfg) h hs.index
      obtain ⟨p, m, q, x, c, rfl, h1, h3, h5, h6, h7⟩ := hu
      obtain ⟨b, d, s, e1, e2, e3, e4, e5⟩ := hs.trace
      rcases ht : toDo cfg (h.homingSequenceIndex + 1) with _ | ⟨a, as⟩
      · rw [n2 ht] at hx; simp at hx
      · obtain ⟨v1, v2, v3, v4, v5⟩ := n3 a as ht
        have hh : AxisHomed cfg h.currentHomingAxis (p ++ .append m :: q ++ [.handled e]) := by
          refine ⟨x, c, m, h3, h5, h1, ?_⟩
          rw [he, List.append_assoc]
          exact h6.append (List.Sublist.cons_cons _ ((List.singleton_sublist.2 h7).append (List.Sublist.refl [HomingAct.handled Event.motionStopped])))
        have hs' : Since cfg (nextAxis cfg h).1 (t ++ [.handled e]) [] := by
          refine ⟨⟨b, d ++ [h.currentHomingAxis], s ++ (p ++ .append m :: q ++ [.handled e]), by rw [e1]; simp, ?_, by simp, ?_,
            homed_snoc hh e5⟩, v2, v5⟩
          · simp only [List.mem_append, not_or] at e3 ⊢
            exact ⟨e2, e3, by simp⟩
          · rw [e4, ht, v3, v4]; simp
        obtain ⟨i1, i2⟩ := approach_inv (env := env) hs' (still he)
        exact ⟨by rw [assoc]; exact i1, cons _ _ i2⟩
    · obtain ⟨u, hs, hu⟩ := pre hst (by simp) (by simp)
      simp only [Stage, hst] at hu
      obtain ⟨n1, n2, n3⟩ := nextAxis_spec (cfg := cfg) h hs.index
      obtain ⟨p, m, q, x, c, rfl, h1, h3, h5, h6, h7⟩ := hu
      obtain ⟨b, d, s, e1, e2, e3, e4, e5⟩ := hs.trace
      rcases ht : toDo cfg (h.homingSequenceIndex + 1) with _ | ⟨a, as⟩
      · have hh : AxisHomed cfg h.currentHomingAxis (p ++ .append m :: q ++ [.handled e]) := by
          refine ⟨x, c, m, h3, h5, h1, ?_⟩
          rw [he, List.append_assoc]
          exact h6.append (List.Sublist.cons_cons _ ((List.singleton_sublist.2 h7).append (List.Sublist.refl [HomingAct.handled Event.motionStopped])))
        simp only [goTo, enterState]
        refine ⟨⟨fun _ hc => absurd rfl hc, fun hc => absurd hc hs.ne⟩, cons _ _ (each_cons ⟨fun _ => ?_, by simp⟩ each_nil)⟩
        refine ⟨b, s ++ (p ++ .append m :: q ++ [.handled e]), by rw [e1]; simp, ?_, ?_⟩
        · simp only [List.mem_append, not_or] at e3 ⊢
          exact ⟨e2, e3, by simp⟩
        · rw [e4, ht]; exact homed_snoc hh e5
      · rw [(n3 a as ht).1] at hx; simp at hx
    · exact same
  · exact same

theorem inv_fresh : Inv cfg (fresh cfg) [] := ⟨fun h => absurd rfl h, fun _ => rfl⟩

theorem run_inv (hn : cfg.n ≤ 3) (cs : List (Call × HomingEnv)) : ∀ {h : Homer} {t : List HomingAct}, Inv cfg h t →
    Inv cfg (run cfg h cs).1 (t ++ (run cfg h cs).2) ∧ Each (Good cfg) t (run cfg h cs).2 := by
  induction cs with
  | nil => intro h t hi; exact ⟨by simpa [run] using hi, each_nil⟩
  | cons c cs ih =>
    intro h t hi
    have hc : Inv cfg (call cfg h c).1 (t ++ (call cfg h c).2) ∧ Each (Good cfg) t (call cfg h c).2 := by
      rcases c with ⟨_ | e, env⟩
      · exact start_inv hi
      · exact event_inv hn e hi
    obtain ⟨i1, i2⟩ := ih hc.1
    exact ⟨by rw [List.append_assoc] at i1; exact i1, each_append hc.2 i2 fun _ _ _ _ => good_more⟩

end Moovr.Homer
