import Verif.Lemmas.HomingWaits
import Verif.Lemmas.Homing
/-! Helper lemmas: homing and the events of its switch. -/
namespace Moovr

namespace DebouncedInput

/-- A change of level is reported. -/
theorem getEvent_level (d : DebouncedInput) (x : Bool) (h : d.currentState = d.previousState) :
    (d.getEvent x).1.currentState = (d.getEvent x).1.previousState ∧
    ((d.getEvent x).1.getState = d.getState ∨
      (d.getEvent x).2 = if (d.getEvent x).1.getState then d.onClose else d.onOpen) := by
  unfold getEvent getState
  cases x <;> simp only [Bool.false_eq_true, if_false, if_true]
  · split
    · exact ⟨h, .inl rfl⟩
    · split
      · exact ⟨rfl, .inr rfl⟩
      · rename_i hp
        simp only [Bool.not_eq_true] at hp
        exact ⟨hp.symm, .inl (by rw [h, hp])⟩
  · split
    · exact ⟨h, .inl rfl⟩
    · split
      · exact ⟨rfl, .inr rfl⟩
      · rename_i hp
        simp only [Bool.not_eq_true', Bool.not_eq_false] at hp
        exact ⟨hp.symm, .inl (by rw [h, hp])⟩

end DebouncedInput

namespace Homer
open HomingSpec
variable {cfg : HomingConfig}

/-- The level of the switch for which homing waits. -/
def awaited (h : Homer) : Option Bool :=
  match h.state with
  | .closing => some false
  | .opening => some true
  | _ => none

/-- An axis is selected. -/
def Busy (h : Homer) : Prop := h.state ≠ .lost ∧ h.state ≠ .found

theorem selectAxis_selected (h : Homer) (hs : (selectAxis cfg h).2 = true) : Selected cfg (selectAxis cfg h).1 := by
  obtain ⟨-, h2, h3⟩ := selectAxis_spec (cfg := cfg) h
  cases hl : toDo cfg h.homingSequenceIndex with
  | nil => rw [h2 hl] at hs; cases hs
  | cons a as => exact (h3 a as hl).2.1

theorem nextAxis_selected (h : Homer) (hs : (nextAxis cfg h).2 = true) : Selected cfg (nextAxis cfg h).1 := by
  unfold nextAxis at hs ⊢
  split at hs
  · rename_i hc
    rw [if_pos hc]
    exact selectAxis_selected _ hs
  · cases hs

theorem Selected.goTo {h : Homer} (hs : Selected cfg h) (env : HomingEnv) (s : HomingState) : Selected cfg (goTo cfg env h s).1 :=
  ⟨hs.homeable, hs.switch, hs.closes, hs.opens⟩

theorem Selected.approach {h : Homer} (hs : Selected cfg h) (env : HomingEnv) : Selected cfg (approach cfg env h).1 :=
  ⟨hs.homeable, hs.switch, hs.closes, hs.opens⟩

/-- An event keeps the selection right. -/
theorem react_selected (env : HomingEnv) (h : Homer) (e : Event) (hs : Busy h → Selected cfg h) :
    Busy (react cfg env h e).1 → Selected cfg (react cfg env h e).1 := by
  have hb : h.state ≠ .lost → h.state ≠ .found → Selected cfg h := fun h1 h2 => hs ⟨h1, h2⟩
  unfold react
  split <;> rename_i hst
  · exact hs
  · split
    · exact fun _ => (hb (by simp [hst]) (by simp [hst])).approach env
    · exact hs
  · split
    · exact fun _ => (hb (by simp [hst]) (by simp [hst])).goTo env _
    · exact hs
  · split
    · exact fun _ => (hb (by simp [hst]) (by simp [hst])).goTo env _
    · exact hs
  · split
    · exact fun _ => (hb (by simp [hst]) (by simp [hst])).goTo env _
    · exact hs
  · split
    · exact fun _ => (hb (by simp [hst]) (by simp [hst])).goTo env _
    · exact hs
  · split
    · simp only
      split
      · rename_i hn
        exact fun _ => (nextAxis_selected h hn).approach env
      · intro hbusy
        exact absurd rfl hbusy.2
    · exact hs
  · exact hs

/-- Homing begins to approach a switch only if it is open. -/
theorem react_closing (env : HomingEnv) (h : Homer) (e : Event) (hc : (react cfg env h e).1.state = .closing) :
    (react cfg env h e).1 = h ∨ env.closed (react cfg env h e).1.theLimitSwitch = false := by
  have happ : ∀ g : Homer, (approach cfg env g).1.state = .closing → env.closed (approach cfg env g).1.theLimitSwitch = false := by
    intro g hg
    unfold approach goTo at hg ⊢
    simp only at hg ⊢
    cases hx : env.closed g.theLimitSwitch
    · rfl
    · rw [hx] at hg; simp at hg
  unfold react at hc ⊢
  repeat' split
  all_goals first
    | exact .inl rfl
    | (right; apply happ; simp_all; done)
    | (exfalso; simp_all [goTo]; done)
    | skip
  all_goals (simp only at *; split <;> simp_all [goTo])

/-- What homing does with an event while it waits for its switch. -/
theorem react_awaited (env : HomingEnv) (h : Homer) (e : Event) {v : Bool} (ha : awaited h = some v) :
    ((if v then h.limitSwitchOpen else h.limitSwitchClose) = e → (react cfg env h e).2 = [.stop] ∧ awaited (react cfg env h e).1 = none) ∧
    ((if v then h.limitSwitchOpen else h.limitSwitchClose) ≠ e → react cfg env h e = (h, [])) := by
  unfold awaited at ha
  unfold react
  split at ha
  · rename_i hst
    simp only [Option.some.injEq] at ha
    subst ha
    simp only [Bool.false_eq_true, if_false, hst]
    refine ⟨fun he => ?_, fun he => if_neg he⟩
    rw [if_pos he]
    exact ⟨rfl, rfl⟩
  · rename_i hst
    simp only [Option.some.injEq] at ha
    subst ha
    simp only [if_true, hst]
    refine ⟨fun he => ?_, fun he => if_neg he⟩
    rw [if_pos he]
    exact ⟨rfl, rfl⟩
  · cases ha

end Homer

namespace Board
open EventQueueSpec EventBuffer LoopSpec HomingSpec Homer
variable {K : MotionKit} (t : Target K)

/-- The input of the switch of an axis reports the events for which homing waits. -/
def Connected (cfg : HomingConfig) : Prop :=
  ∀ a, Homeable cfg a → ∃ c o, (a, cfg.homingDirection a, c, o) ∈ switches ∧ inputEvents[switchOf cfg a]? = some (c, o)

theorem Connected.selected {cfg : HomingConfig} (hw : Connected cfg) (hn : cfg.n ≤ 3) {h : Homer} (hs : Selected cfg h) :
    h.theLimitSwitch < 9 ∧ ∀ v : Bool, (if v then h.limitSwitchOpen else h.limitSwitchClose) = inputEvent h.theLimitSwitch v := by
  obtain ⟨c, o, h1, h2⟩ := hw _ hs.homeable
  rw [← hs.switch] at h2
  refine ⟨?_, ?_⟩
  · by_contra hc
    rw [List.getElem?_eq_none (by simp [inputEvents]; omega)] at h2
    cases h2
  · have hc : h.limitSwitchClose = c := (hs.closes hn c).2 ⟨o, h1⟩
    have ho : h.limitSwitchOpen = o := (hs.opens hn o).2 ⟨c, h1⟩
    intro v
    unfold inputEvent
    rw [h2, hc, ho]

/-- The debounced level of an input. -/
def level (b : Board K) (i : Nat) : Bool := (b.myInputs i).getState

/-- Invariant. -/
structure Watching (b : Board K) : Prop where
  same : ∀ i, (b.myInputs i).currentState = (b.myInputs i).previousState
  events : ∀ i < 9, ∀ high : Bool, (if high then (b.myInputs i).onClose else (b.myInputs i).onOpen) = inputEvent i high
  fifo : Fifo b
  selected : Busy b.homer → Selected t.cfg b.homer

/-- From `b` to `b'` events `es` were offered, among them those for changed inputs. -/
structure Noticed (b b' : Board K) (es : List Event) : Prop where
  homer : b'.homer = b.homer
  acts : b'.acts = b.acts
  calls : b'.calls = b.calls ++ es.map .push
  real : ∀ e ∈ es, e ≠ .none
  levels : ∀ i < 9, b'.level i = b.level i ∨ inputEvent i (b'.level i) ∈ es

theorem Noticed.trans {a b c : Board K} {es fs : List Event} (h : Noticed a b es) (h' : Noticed b c fs) : Noticed a c (es ++ fs) := by
  refine ⟨h'.homer.trans h.homer, h'.acts.trans h.acts, by rw [h'.calls, h.calls, List.map_append, List.append_assoc], ?_, ?_⟩
  · intro e he
    exact (List.mem_append.1 he).elim (h.real e) (h'.real e)
  · intro i hi
    rcases h'.levels i hi with h1 | h1
    · rcases h.levels i hi with h2 | h2
      · exact .inl (h1.trans h2)
      · rw [h1]; exact .inr (List.mem_append_left _ h2)
    · exact .inr (List.mem_append_right _ h1)

theorem sampleInput_noticed {b : Board K} (h : Watching t b) {i : Nat} (hi : i < 9) :
    ∃ es, Noticed b (b.sampleInput i) es ∧ Watching t (b.sampleInput i) := by
  have hk := DebouncedInput.getEvent_events (b.myInputs i) (b.inputs.get i)
  obtain ⟨hl1, hl2⟩ := DebouncedInput.getEvent_level (b.myInputs i) (b.inputs.get i) (h.same i)
  have hne : ∀ high : Bool, (if high then (b.myInputs i).onClose else (b.myInputs i).onOpen) ≠ .none :=
    fun high => by rw [h.events i hi high]; exact (inputEvent_isInput i hi high).2
  unfold sampleInput
  simp only
  generalize (b.myInputs i).getEvent (b.inputs.get i) = r at *
  have w : Watching t { b with myInputs := fun j => if j = i then r.1 else b.myInputs j } := by
    refine ⟨fun j => ?_, fun j hj high => ?_, ⟨h.fifo.queue, h.fifo.fifo⟩, h.selected⟩
    · show (if j = i then r.1 else b.myInputs j).currentState = (if j = i then r.1 else b.myInputs j).previousState
      split
      · exact hl1
      · exact h.same j
    · show (if high then (if j = i then r.1 else b.myInputs j).onClose else (if j = i then r.1 else b.myInputs j).onOpen) = _
      by_cases hji : j = i
      · subst hji
        simp only [if_true, hk.1, hk.2]
        exact h.events j hj high
      · simp only [hji, if_false]
        exact h.events j hj high
  have hlev : ∀ j < 9, (if j = i then r.1 else b.myInputs j).getState = (b.myInputs j).getState ∨
      (r.2 ≠ .none ∧ inputEvent j (if j = i then r.1 else b.myInputs j).getState = r.2) := by
    intro j hj
    by_cases hji : j = i
    · subst hji
      simp only [if_true]
      rcases hl2 with h2 | h2
      · exact .inl h2
      · exact .inr ⟨by rw [h2]; exact hne _, by rw [h2]; exact (h.events j hj _).symm⟩
    · simp only [hji, if_false]
      exact .inl trivial
  split
  · rename_i hn
    have hp := pushed_push ({ b with myInputs := fun j => if j = i then r.1 else b.myInputs j }) r.2
    refine ⟨[r.2], ⟨hp.homer, hp.acts, hp.calls, fun e he => by rw [List.mem_singleton.1 he]; exact fun h => hn h.symm, ?_⟩,
      ⟨w.same, w.events, hp.fifo w.fifo, w.selected⟩⟩
    intro j hj
    rcases hlev j hj with h1 | h1
    · exact .inl h1
    · refine .inr (List.mem_singleton.2 h1.2)
  · rename_i hn
    refine ⟨[], ⟨rfl, rfl, by simp, by simp, ?_⟩, w⟩
    intro j hj
    rcases hlev j hj with h1 | h1
    · exact .inl h1
    · exact absurd h1.1 (by simpa using fun h => hn (Ne.symm h))

theorem sample_noticed {b : Board K} (h : Watching t b) (p : Ports) : ∃ es, Noticed b (b.sample p) es ∧ Watching t (b.sample p) := by
  have hgen : ∀ (l : List Nat) (b : Board K), (∀ i ∈ l, i < 9) → Watching t b →
      ∃ es, Noticed b (l.foldl sampleInput b) es ∧ Watching t (l.foldl sampleInput b) := by
    intro l
    induction l with
    | nil => intro b _ h; exact ⟨[], ⟨rfl, rfl, by simp, by simp, fun _ _ => .inl rfl⟩, h⟩
    | cons i l ih =>
      intro b hl h
      obtain ⟨es, n, w⟩ := sampleInput_noticed t h (hl i (by simp))
      obtain ⟨fs, n', w'⟩ := ih _ (fun j hj => hl j (by simp [hj])) w
      exact ⟨es ++ fs, n.trans n', w'⟩
  unfold sample
  obtain ⟨es, n, w⟩ := hgen (List.range nmbrInputs) { b with inputs := b.inputs.sample p }
    (fun i hi => by simpa [nmbrInputs] using hi) ⟨h.same, h.events, ⟨h.fifo.queue, h.fifo.fifo⟩, h.selected⟩
  exact ⟨es, ⟨n.homer, n.acts, n.calls, n.real, n.levels⟩, w⟩

/-- The parts of an iteration. -/
theorem loop_parts {b b' : Board K} {r : Round} (h : Watching t b) (hl : b.loop t r = some b') :
    ∃ b₂ es, Noticed b b₂ es ∧ Watching t b₂ ∧ b' = b₂.handle t := by
  unfold loop at hl
  split at hl
  · cases hl
  · rename_i b₁ hf
    obtain ⟨es, hp, ho⟩ := pushed_fill _ _ _ hf
    have n₁ : Noticed b b₁ es := ⟨hp.homer, hp.acts, hp.calls, fun e he => (ho e he).2.1, fun i _ => .inl (by
      unfold level; rw [hp.myInputs])⟩
    have w₁ : Watching t b₁ := ⟨fun i => by rw [hp.myInputs]; exact h.same i, fun i hi v => by rw [hp.myInputs]; exact h.events i hi v,
      hp.fifo h.fifo, by rw [hp.homer]; exact h.selected⟩
    simp only [Option.some.injEq] at hl
    split at hl
    · obtain ⟨fs, n₂, w₂⟩ := sample_noticed t w₁ r.ports
      exact ⟨_, _, n₁.trans n₂, w₂, hl.symm⟩
    · exact ⟨_, _, n₁, w₁, hl.symm⟩

theorem pending_prefix (es : List Event) : ∀ calls : List EventQueueSpec.Call, pending calls <+: pending (calls ++ es.map .push) := by
  induction es with
  | nil => intro calls; simp
  | cons e es ih =>
    intro calls
    rw [List.map_cons, ← List.singleton_append, ← List.append_assoc]
    refine List.IsPrefix.trans ?_ (ih _)
    rw [pending_snoc]
    simp only [next]
    split
    · exact List.prefix_append _ _
    · exact List.prefix_refl _

/-- Handling. -/
theorem handle_parts {b : Board K} (h : Watching t b) :
    Watching t (b.handle t) ∧ (b.handle t).myInputs = b.myInputs ∧ b.calls <+: (b.handle t).calls ∧
    (pending b.calls).tail <+: pending (b.handle t).calls ∧
    ((pending b.calls = [] ∧ (b.handle t).homer = b.homer ∧ (b.handle t).acts = b.acts) ∨
      ∃ e q, pending b.calls = e :: q ∧ (b.handle t).homer = (react t.cfg b.env b.homer e).1 ∧
        (b.handle t).acts = b.acts ++ .handled e :: (react t.cfg b.env b.homer e).2) := by
  obtain ⟨es, cs, -, h2, h3, h4, -, -, h7, h8⟩ := handle_spec t b h.fifo
  have hq : (pending b.calls).tail <+: pending (b.handle t).calls := by
    rw [h2, ← List.drop_one, ← h7]
    exact pending_prefix es _
  have hc : b.calls <+: (b.handle t).calls := ⟨cs ++ es.map .push, by rw [h2, List.append_assoc]⟩
  have main : ((pending b.calls = [] ∧ (b.handle t).homer = b.homer ∧ (b.handle t).acts = b.acts) ∨
      ∃ e q, pending b.calls = e :: q ∧ (b.handle t).homer = (react t.cfg b.env b.homer e).1 ∧
        (b.handle t).acts = b.acts ++ .handled e :: (react t.cfg b.env b.homer e).2) := by
    cases hp : pending b.calls with
    | nil =>
      rw [hp] at h8
      simp only [List.head?_nil, Prod.mk.injEq] at h8
      exact .inl ⟨rfl, h8.1, h8.2⟩
    | cons e q =>
      rw [hp] at h8
      simp only [List.head?_cons, Prod.mk.injEq] at h8
      exact .inr ⟨e, q, rfl, h8.1, h8.2⟩
  refine ⟨⟨fun i => by rw [h3]; exact h.same i, fun i hi v => by rw [h3]; exact h.events i hi v, h4, ?_⟩, h3, hc, hq, main⟩
  rcases main with ⟨-, m, -⟩ | ⟨e, q, -, m, -⟩
  · rw [m]; exact h.selected
  · rw [m]; exact react_selected b.env b.homer e h.selected

/-- Homing waits for level `v` of its switch; if the switch has this level, the event is pending. -/
def Alert (v : Bool) (b : Board K) : Prop :=
  awaited b.homer = some v ∧ (b.level b.homer.theLimitSwitch = v → inputEvent b.homer.theLimitSwitch v ∈ pending b.calls)

theorem busy_of_awaited {h : Homer} {v : Bool} (ha : awaited h = some v) : Busy h := by
  unfold awaited at ha
  constructor <;> intro hs <;> rw [hs] at ha <;> cases ha

/-- While homing waits for its switch: either the oldest pending event is the awaited one, and homing stops the motion; or nothing
happens. -/
theorem handle_awaited (hw : Connected t.cfg) (hn : t.cfg.n ≤ 3) {b : Board K} (h : Watching t b) {v : Bool} (ha : awaited b.homer = some v) :
    (HomingAct.stop ∈ (b.handle t).acts.drop b.acts.length ∧ awaited (b.handle t).homer = none) ∨
    ((b.handle t).homer = b.homer ∧ (pending b.calls).head? ≠ some (inputEvent b.homer.theLimitSwitch v)) := by
  obtain ⟨-, hev⟩ := hw.selected hn (h.selected (busy_of_awaited ha))
  obtain ⟨-, -, -, -, ⟨h1, h2, h3⟩ | ⟨e, q, h1, h2, h3⟩⟩ := handle_parts t h
  · exact .inr ⟨h2, by rw [h1]; simp⟩
  · obtain ⟨r1, r2⟩ := react_awaited (cfg := t.cfg) b.env b.homer e ha
    rw [hev v] at r1 r2
    by_cases he : inputEvent b.homer.theLimitSwitch v = e
    · obtain ⟨a1, a2⟩ := r1 he
      exact .inl ⟨by rw [h3, List.drop_left, a1]; simp, by rw [h2]; exact a2⟩
    · refine .inr ⟨by rw [h2, r2 he], ?_⟩
      rw [h1]
      simpa using fun hc => he hc.symm

theorem loop_alert (hw : Connected t.cfg) (hn : t.cfg.n ≤ 3) {b b' : Board K} {r : Round} (h : Watching t b) {v : Bool} (ha : Alert v b)
    (hl : b.loop t r = some b') (ho : NoOverflow b'.calls) :
    (HomingAct.stop ∈ b'.acts.drop b.acts.length ∧ awaited b'.homer = none) ∨ (b'.homer = b.homer ∧ Alert v b') := by
  obtain ⟨b₂, es, n, w, rfl⟩ := loop_parts t h hl
  obtain ⟨-, hm, hc, hq, -⟩ := handle_parts t w
  have ho₂ : NoOverflow (b.calls ++ es.map .push) := by rw [← n.calls]; exact noOverflow_prefix ho hc
  have hp : pending b₂.calls = pending b.calls ++ es := by rw [n.calls]; exact pending_pushes es _ ho₂ n.real
  have ha₂ : awaited b₂.homer = some v := by rw [n.homer]; exact ha.1
  have h9 := (hw.selected hn (h.selected (busy_of_awaited ha.1))).1
  rcases handle_awaited t hw hn w ha₂ with h1 | ⟨h1, h2⟩
  · rw [n.acts] at h1; exact .inl h1
  · refine .inr ⟨h1.trans n.homer, by rw [h1]; exact ha₂, ?_⟩
    intro hlev
    rw [h1, n.homer] at hlev ⊢
    rw [n.homer] at h2
    have hlev₂ : b₂.level b.homer.theLimitSwitch = v := by unfold level at *; rw [hm] at hlev; exact hlev
    have hmem : inputEvent b.homer.theLimitSwitch v ∈ pending b₂.calls := by
      rw [hp]
      rcases n.levels _ h9 with h3 | h3
      · exact List.mem_append_left _ (ha.2 (by rw [← h3]; exact hlev₂))
      · rw [hlev₂] at h3; exact List.mem_append_right _ h3
    refine hq.subset ?_
    cases hpp : pending b₂.calls with
    | nil => rw [hpp] at hmem; cases hmem
    | cons e q =>
      rw [hpp] at hmem h2
      rcases List.mem_cons.1 hmem with he | he
      · exact absurd (by rw [he]; rfl) h2
      · exact he

/-- The awaited event advances in the queue. -/
theorem loop_advance (hw : Connected t.cfg) (hn : t.cfg.n ≤ 3) {b b' : Board K} {r : Round} (h : Watching t b) {v : Bool}
    (ha : awaited b.homer = some v) {j : Nat} (hj : inputEvent b.homer.theLimitSwitch v ∈ (pending b.calls).take j)
    (hl : b.loop t r = some b') :
    HomingAct.stop ∈ b'.acts.drop b.acts.length ∨
    (b'.homer = b.homer ∧ inputEvent b.homer.theLimitSwitch v ∈ (pending b'.calls).take (j - 1)) := by
  obtain ⟨b₂, es, n, w, rfl⟩ := loop_parts t h hl
  obtain ⟨-, hm, hc, hq, -⟩ := handle_parts t w
  have hpre : pending b.calls <+: pending b₂.calls := by rw [n.calls]; exact pending_prefix es _
  rcases handle_awaited t hw hn w (v := v) (by rw [n.homer]; exact ha) with h1 | ⟨h1, h2⟩
  · rw [n.acts] at h1; exact .inl h1.1
  · refine .inr ⟨h1.trans n.homer, ?_⟩
    rw [n.homer] at h2
    cases hp : pending b.calls with
    | nil => rw [hp] at hj; simp at hj
    | cons e q =>
      rw [hp] at hj hpre
      obtain ⟨q', hq'⟩ := hpre
      rw [← hq'] at h2 hq
      simp only [List.cons_append, List.head?_cons, ne_eq, Option.some.injEq, List.tail_cons] at h2 hq
      cases j with
      | zero => simp at hj
      | succ j =>
        rw [List.take_succ_cons, List.mem_cons] at hj
        have hj' := hj.resolve_left fun he => h2 he.symm
        obtain ⟨x, hx⟩ := hq
        rw [← hx, List.append_assoc, Nat.add_sub_cancel, List.take_append]
        exact List.mem_append_left _ hj'

/-- All that is needed, except at the change from closing to opening. -/
structure Sees (b : Board K) : Prop where
  watching : Watching t b
  closing : b.homer.state = .closing → Alert false b

theorem loop_sees (hw : Connected t.cfg) (hn : t.cfg.n ≤ 3) {b b' : Board K} {r : Round} (h : Sees t b) (hl : b.loop t r = some b')
    (ho : NoOverflow b'.calls) : Sees t b' := by
  have hl' := hl
  obtain ⟨b₂, es, n, w, rfl⟩ := loop_parts t h.watching hl
  obtain ⟨w', hm, -, -, hcases⟩ := handle_parts t w
  refine ⟨w', fun hst => ?_⟩
  have same : (b₂.handle t).homer = b₂.homer → Alert false (b₂.handle t) := by
    intro he
    have hst' : b.homer.state = .closing := by rw [← n.homer, ← he]; exact hst
    rcases loop_alert t hw hn h.watching (h.closing hst') hl' ho with ⟨-, h1⟩ | ⟨-, h1⟩
    · unfold awaited at h1; rw [hst] at h1; cases h1
    · exact h1
  rcases hcases with ⟨-, h2, -⟩ | ⟨e, q, -, h2, -⟩
  · exact same h2
  · rcases react_closing (cfg := t.cfg) b₂.env b₂.homer e (by rw [← h2]; exact hst) with h3 | h3
    · exact same (h2.trans h3)
    · refine ⟨by unfold awaited; rw [hst], fun hlev => ?_⟩
      rw [← h2] at h3
      have : (b₂.myInputs (b₂.handle t).homer.theLimitSwitch).isClosed = false := h3
      unfold level at hlev
      rw [hm] at hlev
      unfold DebouncedInput.isClosed at this
      unfold DebouncedInput.getState at hlev
      rw [hlev] at this
      cases this

theorem loops_snoc_list (rs more : List Round) : ∀ b : Board K, b.loops t (rs ++ more) = (b.loops t rs).bind fun b => b.loops t more := by
  induction rs with
  | nil => intro b; rfl
  | cons r rs ih =>
    intro b
    simp only [List.cons_append, loops]
    cases b.loop t r with
    | none => rfl
    | some b => exact ih b

theorem loops_watching (rs : List Round) : ∀ {b b' : Board K}, Watching t b → b.loops t rs = some b' →
    Watching t b' ∧ b.calls <+: b'.calls := by
  induction rs with
  | nil =>
    intro b b' h hl
    simp only [loops, Option.some.injEq] at hl
    subst hl
    exact ⟨h, List.prefix_refl _⟩
  | cons r rs ih =>
    intro b b' h hl
    unfold loops at hl
    split at hl
    · cases hl
    · rename_i b₁ hb₁
      obtain ⟨b₂, es, n, w, rfl⟩ := loop_parts t h hb₁
      obtain ⟨w', -, hc, -⟩ := handle_parts t w
      obtain ⟨h1, h2⟩ := ih w' hl
      exact ⟨h1, (List.IsPrefix.trans ⟨_, n.calls.symm⟩ hc).trans h2⟩

theorem loops_sees (hw : Connected t.cfg) (hn : t.cfg.n ≤ 3) (rs : List Round) : ∀ {b b' : Board K}, Sees t b → b.loops t rs = some b' →
    NoOverflow b'.calls → Sees t b' := by
  induction rs with
  | nil =>
    intro b b' h hl _
    simp only [loops, Option.some.injEq] at hl
    subst hl
    exact h
  | cons r rs ih =>
    intro b b' h hl ho
    unfold loops at hl
    split at hl
    · cases hl
    · rename_i b₁ hb₁
      obtain ⟨b₂, es, n, w, he⟩ := loop_parts t h.watching hb₁
      have w₁ : Watching t b₁ := he ▸ (handle_parts t w).1
      exact ih (loop_sees t hw hn h hb₁ (noOverflow_prefix ho (loops_watching t rs w₁ hl).2)) hl ho

theorem loops_advance (hw : Connected t.cfg) (hn : t.cfg.n ≤ 3) (rs : List Round) : ∀ {b b' : Board K} {v : Bool} {j : Nat}, Watching t b →
    awaited b.homer = some v → inputEvent b.homer.theLimitSwitch v ∈ (pending b.calls).take j → j ≤ rs.length → b.loops t rs = some b' →
    HomingAct.stop ∈ b'.acts.drop b.acts.length := by
  induction rs with
  | nil =>
    intro b b' v j _ _ hj hlen _
    have : j = 0 := by simpa using hlen
    subst this
    simp at hj
  | cons r rs ih =>
    intro b b' v j h ha hj hlen hl
    unfold loops at hl
    split at hl
    · cases hl
    · rename_i b₁ hb₁
      have hpre₁ : b.acts <+: b₁.acts := by
        refine loops_acts t [r] ?_
        simp only [loops, hb₁]
      have hpre := loops_acts t rs hl
      obtain ⟨x, hx⟩ := hpre₁
      obtain ⟨y, hy⟩ := hpre
      have split₂ : b'.acts.drop b.acts.length = b₁.acts.drop b.acts.length ++ b'.acts.drop b₁.acts.length := by
        rw [← hy, ← hx]; simp
      rw [split₂, List.mem_append]
      rcases loop_advance t hw hn h ha hj hb₁ with h1 | ⟨h1, h2⟩
      · exact .inl h1
      · obtain ⟨b₂, es, n, w, he⟩ := loop_parts t h hb₁
        have w₁ : Watching t b₁ := he ▸ (handle_parts t w).1
        rw [← h1] at h2 ha
        refine .inr (ih w₁ ha h2 ?_ hl)
        rw [List.length_cons] at hlen
        omega

/-- While homing waits for its switch: it stops the motion, or goes on to be alert. -/
theorem loops_alert (hw : Connected t.cfg) (hn : t.cfg.n ≤ 3) (rs : List Round) : ∀ {b b' : Board K} {v : Bool}, Watching t b →
    Alert v b → b.loops t rs = some b' → NoOverflow b'.calls →
    HomingAct.stop ∈ b'.acts.drop b.acts.length ∨ (b'.homer = b.homer ∧ Alert v b') := by
  induction rs with
  | nil =>
    intro b b' v _ ha hl _
    simp only [loops, Option.some.injEq] at hl
    subst hl
    exact .inr ⟨rfl, ha⟩
  | cons r rs ih =>
    intro b b' v h ha hl ho
    unfold loops at hl
    split at hl
    · cases hl
    · rename_i b₁ hb₁
      obtain ⟨b₂, es, n, w, he⟩ := loop_parts t h hb₁
      have w₁ : Watching t b₁ := he ▸ (handle_parts t w).1
      have hpre₁ : b.acts <+: b₁.acts := by
        refine loops_acts t [r] ?_
        simp only [loops, hb₁]
      obtain ⟨x, hx⟩ := hpre₁
      obtain ⟨y, hy⟩ := loops_acts t rs hl
      have split₂ : b'.acts.drop b.acts.length = b₁.acts.drop b.acts.length ++ b'.acts.drop b₁.acts.length := by
        rw [← hy, ← hx]; simp
      rw [split₂, List.mem_append]
      rcases loop_alert t hw hn h ha hb₁ (noOverflow_prefix ho (loops_watching t rs w₁ hl).2) with h1 | ⟨h1, h2⟩
      · exact .inl (.inl h1.1)
      · rcases ih w₁ h2 hl ho with h3 | ⟨h3, h4⟩
        · exact .inl (.inr h3)
        · exact .inr ⟨h3.trans h1, h4⟩

theorem setup_sees (p : Ports) : Sees t (setup t p) := by
  obtain ⟨c1, c2, c3, c4, c5, c6⟩ := beforeHoming_spec t p
  have hin : ∀ i, (beforeHoming t p).myInputs i = if i < nmbrInputs then
      (myInputs₀ i).doInitialize (((fresh t : Board K).inputs.sample p).get i) else myInputs₀ i := fun _ => rfl
  have hsame : ∀ i, ((beforeHoming t p).myInputs i).currentState = ((beforeHoming t p).myInputs i).previousState := by
    intro i
    rw [hin]
    split
    · cases ((fresh t : Board K).inputs.sample p).get i <;> rfl
    · unfold myInputs₀; split <;> rfl
  have hevents : ∀ i < 9, ∀ high : Bool, (if high then ((beforeHoming t p).myInputs i).onClose else ((beforeHoming t p).myInputs i).onOpen) =
      inputEvent i high := by
    intro i hi high
    have h9 : i < nmbrInputs := hi
    rw [hin, ← myInputs₀_events i hi high]
    simp only [h9, if_true]
    cases ((fresh t : Board K).inputs.sample p).get i <;> cases high <;> rfl
  have hfifo := (setup_phase t p).1.fifo
  rw [setup_eq] at hfifo ⊢
  generalize beforeHoming t p = b at *
  have hs : b.ctrl.state = .stopped := by rw [c1]; rfl
  have hr : b.env.running = false := by simp [env, MotionCtrl.isRunning, hs]
  obtain ⟨es, hpp, -⟩ := pushed_execs t (Homer.start t.cfg b.env b.homer).2
    { b with homer := (Homer.start t.cfg b.env b.homer).1, acts := b.acts ++ (Homer.start t.cfg b.env b.homer).2 } (okAct_start _ _ _)
  have hhom : (b.withHomer t (Homer.start t.cfg b.env b.homer)).homer = (Homer.start t.cfg b.env b.homer).1 := hpp.homer
  have hmy : (b.withHomer t (Homer.start t.cfg b.env b.homer)).myInputs = b.myInputs := hpp.myInputs
  have hst : (Busy (Homer.start t.cfg b.env b.homer).1 → Selected t.cfg (Homer.start t.cfg b.env b.homer).1) ∧
      ((Homer.start t.cfg b.env b.homer).1.state = .closing → b.env.closed (Homer.start t.cfg b.env b.homer).1.theLimitSwitch = false) := by
    unfold Homer.start
    simp only [hr, Bool.false_eq_true, if_false]
    split
    · rename_i hsel
      refine ⟨fun _ => (selectAxis_selected _ hsel).approach _, fun hc => ?_⟩
      unfold Homer.approach Homer.goTo at hc ⊢
      simp only at hc ⊢
      cases hx : b.env.closed (selectAxis t.cfg { b.homer with homingSequenceIndex := 0 }).1.theLimitSwitch
      · rfl
      · rw [hx] at hc; simp at hc
    · have h1 := (selectAxis_spec (cfg := t.cfg) { b.homer with homingSequenceIndex := 0 }).1
      have h2 : (selectAxis t.cfg { b.homer with homingSequenceIndex := 0 }).1.state = .lost := by rw [h1, c5]; rfl
      refine ⟨fun hb => absurd h2 hb.1, fun hc => ?_⟩
      exact absurd (h2.symm.trans hc) (by simp)
  refine ⟨⟨fun i => by rw [hmy]; exact hsame i, fun i hi v => by rw [hmy]; exact hevents i hi v, hfifo, by rw [hhom]; exact hst.1⟩, ?_⟩
  intro hc
  refine ⟨by unfold awaited; rw [hc], fun hlev => ?_⟩
  unfold level at hlev
  rw [hmy, hhom] at hlev
  rw [hhom] at hc
  have hcl : (b.myInputs (Homer.start t.cfg b.env b.homer).1.theLimitSwitch).isClosed = false := hst.2 hc
  unfold DebouncedInput.isClosed at hcl
  unfold DebouncedInput.getState at hlev
  rw [hlev] at hcl
  cases hcl

/-! ### Waiting for what has already happened -/

/-- From `b` to `b'` only events other than `x` were offered. -/
structure Ignored (x : Event) (b b' : Board K) (es : List Event) : Prop where
  homer : b'.homer = b.homer
  acts : b'.acts = b.acts
  calls : b'.calls = b.calls ++ es.map .push
  others : x ∉ es

theorem Ignored.trans {x : Event} {a b c : Board K} {es fs : List Event} (h : Ignored x a b es) (h' : Ignored x b c fs) :
    Ignored x a c (es ++ fs) :=
  ⟨h'.homer.trans h.homer, h'.acts.trans h.acts, by rw [h'.calls, h.calls, List.map_append, List.append_assoc],
    fun hx => (List.mem_append.1 hx).elim h.others h'.others⟩

theorem inputEvent_ne {i j : Nat} (hi : i < 9) (hj : j < 9) (hij : i ≠ j) (v w : Bool) : inputEvent i v ≠ inputEvent j w := by
  have : ∀ i < 9, ∀ j < 9, i ≠ j → ∀ v w : Bool, inputEvent i v ≠ inputEvent j w := by decide +kernel
  exact this i hi j hj hij v w

theorem sampleInput_ignored {b : Board K} (h : Watching t b) {i k : Nat} (hi : i < 9) (hk : k < 9) (hg : b.inputs.get k = true)
    (hl : b.level k = true) : ∃ es, Ignored (inputEvent k true) b (b.sampleInput i) es ∧ (b.sampleInput i).level k = true ∧
      (b.sampleInput i).inputs = b.inputs := by
  have hk' : k = i → ((b.myInputs i).getEvent (b.inputs.get i)).2 = .none ∧
      ((b.myInputs i).getEvent (b.inputs.get i)).1.getState = true := by
    rintro rfl
    have hs := h.same k
    unfold level DebouncedInput.getState at hl
    rw [hg]
    unfold DebouncedInput.getEvent DebouncedInput.getState
    rw [← hs, hl]
    simp only [if_true, Bool.not_true, Bool.false_eq_true, if_false]
    split
    · exact ⟨rfl, rfl⟩
    · exact ⟨rfl, rfl⟩
  have hev : ((b.myInputs i).getEvent (b.inputs.get i)).2 = .none ∨ ∃ v, ((b.myInputs i).getEvent (b.inputs.get i)).2 = inputEvent i v := by
    have h0 := h.events i hi false
    have h1 := h.events i hi true
    simp only [Bool.false_eq_true, if_false, if_true] at h0 h1
    unfold DebouncedInput.getEvent
    repeat' split
    all_goals first
      | exact .inl rfl
      | exact .inr ⟨true, h1⟩
      | exact .inr ⟨false, h0⟩
  unfold sampleInput
  simp only
  generalize (b.myInputs i).getEvent (b.inputs.get i) = r at *
  have hlev : (if k = i then r.1 else b.myInputs k).getState = true := by
    split
    · rename_i he; exact (hk' he).2
    · exact hl
  split
  · rename_i hn
    have hp := pushed_push ({ b with myInputs := fun j => if j = i then r.1 else b.myInputs j }) r.2
    refine ⟨[r.2], ⟨hp.homer, hp.acts, hp.calls, ?_⟩, hlev, hp.inputs⟩
    intro hx
    rw [List.mem_singleton] at hx
    rcases hev with he | ⟨v, he⟩
    · exact hn he.symm
    · by_cases hki : k = i
      · exact hn (hk' hki).1.symm
      · exact inputEvent_ne hk hi hki _ _ (hx.trans he)
  · exact ⟨[], ⟨rfl, rfl, by simp, by simp⟩, hlev, rfl⟩

theorem sample_ignored {b : Board K} (h : Watching t b) {p : Ports} {k : Nat} (hk : k < 9) (hp : pin k p = true) (hl : b.level k = true) :
    ∃ es, Ignored (inputEvent k true) b (b.sample p) es ∧ (b.sample p).level k = true := by
  have hgen : ∀ (l : List Nat) (b : Board K), (∀ i ∈ l, i < 9) → Watching t b → b.inputs.get k = true → b.level k = true →
      ∃ es, Ignored (inputEvent k true) b (l.foldl sampleInput b) es ∧ (l.foldl sampleInput b).level k = true := by
    intro l
    induction l with
    | nil => intro b _ _ _ hl; exact ⟨[], ⟨rfl, rfl, by simp, by simp⟩, hl⟩
    | cons i l ih =>
      intro b hi h hg hl
      obtain ⟨-, -, w⟩ := sampleInput_noticed t h (hi i (by simp))
      obtain ⟨es, n, l1, l2⟩ := sampleInput_ignored t h (hi i (by simp)) hk hg hl
      obtain ⟨fs, n', l'⟩ := ih _ (fun j hj => hi j (by simp [hj])) w (by rw [l2]; exact hg) l1
      exact ⟨es ++ fs, n.trans n', l'⟩
  unfold sample
  obtain ⟨es, n, l⟩ := hgen (List.range nmbrInputs) { b with inputs := b.inputs.sample p }
    (fun i hi => by simpa [nmbrInputs] using hi) ⟨h.same, h.events, ⟨h.fifo.queue, h.fifo.fifo⟩, h.selected⟩
    (by show (b.inputs.sample p).get k = true; rw [get_sample _ _ _ hk]; exact hp) hl
  exact ⟨es, ⟨n.homer, n.acts, n.calls, n.others⟩, l⟩

/-- Homing waits for the opening of a switch that is open, and no event is to come. -/
structure Vain (b : Board K) : Prop where
  watching : Watching t b
  opening : b.homer.state = .opening
  open' : b.level b.homer.theLimitSwitch = true
  absent : inputEvent b.homer.theLimitSwitch true ∉ pending b.calls

theorem mem_pending_pushes {x : Event} (es : List Event) : ∀ {calls : List EventQueueSpec.Call}, x ∉ es → x ∉ pending calls →
    x ∉ pending (calls ++ es.map .push) := by
  induction es with
  | nil => intro calls _ h; simpa using h
  | cons e es ih =>
    intro calls he h
    rw [List.map_cons, ← List.singleton_append, ← List.append_assoc]
    refine ih (fun hx => he (by simp [hx])) ?_
    rw [pending_snoc]
    simp only [next]
    split
    · intro hx
      rcases List.mem_append.1 hx with h1 | h1
      · exact h h1
      · exact he (by rw [List.mem_singleton.1 h1]; simp)
    · exact h

theorem other_ne_input {es : List Event} (ho : ∀ e ∈ es, Other e) {k : Nat} (hk : k < 9) (v : Bool) : inputEvent k v ∉ es := by
  intro hx
  have h1 := (ho _ hx).1
  rw [(inputEvent_isInput k hk v).1] at h1
  cases h1

theorem loop_vain (hw : Connected t.cfg) (hn : t.cfg.n ≤ 3) {b b' : Board K} {r : Round} (h : Vain t b)
    (hp : r.expired = true → pin b.homer.theLimitSwitch r.ports = true) (hl : b.loop t r = some b') :
    Vain t b' ∧ b'.homer = b.homer ∧ ∀ x ∈ b'.acts.drop b.acts.length, ∃ e, x = .handled e := by
  have haw : awaited b.homer = some true := by unfold awaited; rw [h.opening]
  have hsel := h.watching.selected (busy_of_awaited haw)
  have h9 := (hw.selected hn hsel).1
  have hparts : ∃ b₂ es, Ignored (inputEvent b.homer.theLimitSwitch true) b b₂ es ∧ Watching t b₂ ∧
      b₂.level b.homer.theLimitSwitch = true ∧ b' = b₂.handle t := by
    unfold loop at hl
    split at hl
    · cases hl
    · rename_i b₁ hf
      obtain ⟨es, hpp, ho⟩ := pushed_fill _ _ _ hf
      have n₁ : Ignored (inputEvent b.homer.theLimitSwitch true) b b₁ es := ⟨hpp.homer, hpp.acts, hpp.calls, other_ne_input ho h9 _⟩
      have w₁ : Watching t b₁ := ⟨fun i => by rw [hpp.myInputs]; exact h.watching.same i,
        fun i hi v => by rw [hpp.myInputs]; exact h.watching.events i hi v,
        hpp.fifo h.watching.fifo, by rw [hpp.homer]; exact h.watching.selected⟩
      have l₁ : b₁.level b.homer.theLimitSwitch = true := by unfold level; rw [hpp.myInputs]; exact h.open'
      simp only [Option.some.injEq] at hl
      split at hl
      · rename_i hx
        obtain ⟨-, -, w₂⟩ := sample_noticed t w₁ r.ports
        obtain ⟨fs, n₂, l₂⟩ := sample_ignored t w₁ h9 (hp hx) l₁
        exact ⟨_, _, n₁.trans n₂, w₂, l₂, hl.symm⟩
      · exact ⟨_, _, n₁, w₁, l₁, hl.symm⟩
  obtain ⟨b₂, es, n, w, l₂, rfl⟩ := hparts
  have habs : inputEvent b.homer.theLimitSwitch true ∉ pending b₂.calls := by
    rw [n.calls]; exact mem_pending_pushes es n.others h.absent
  obtain ⟨w', hm, -, -, hcases⟩ := handle_parts t w
  obtain ⟨fs, cs, ho, h2, -, -, -, -, h7, -⟩ := handle_spec t b₂ w.fifo
  have habs' : inputEvent b.homer.theLimitSwitch true ∉ pending (b₂.handle t).calls := by
    rw [h2]
    refine mem_pending_pushes fs (other_ne_input ho h9 _) ?_
    rw [h7]
    exact fun hx => habs (List.mem_of_mem_drop hx)
  have hhom : (b₂.handle t).homer = b.homer ∧ ∀ x ∈ (b₂.handle t).acts.drop b.acts.length, ∃ e, x = .handled e := by
    rcases hcases with ⟨-, c2, c3⟩ | ⟨e, q, c1, c2, c3⟩
    · refine ⟨c2.trans n.homer, ?_⟩
      rw [c3, n.acts, List.drop_length]
      simp
    · have hne : (if true then b.homer.limitSwitchOpen else b.homer.limitSwitchClose) ≠ e := by
        rw [(hw.selected hn hsel).2 true]
        intro he
        exact habs (by rw [c1, he]; simp)
      have hr := (react_awaited (cfg := t.cfg) b₂.env b₂.homer e (v := true) (by rw [n.homer]; exact haw)).2 (by rw [n.homer]; exact hne)
      refine ⟨by rw [c2, hr]; exact n.homer, ?_⟩
      rw [c3, n.acts, List.drop_left, hr]
      intro x hx
      rw [List.mem_singleton] at hx
      exact ⟨e, hx⟩
  refine ⟨⟨w', by rw [hhom.1]; exact h.opening, ?_, by rw [hhom.1]; exact habs'⟩, hhom⟩
  rw [hhom.1]
  unfold level at l₂ ⊢
  rw [hm]
  exact l₂

theorem loops_vain (hw : Connected t.cfg) (hn : t.cfg.n ≤ 3) (rs : List Round) : ∀ {b b' : Board K}, Vain t b →
    (∀ q ∈ sampled rs, pin b.homer.theLimitSwitch q = true) → b.loops t rs = some b' →
    b'.homer = b.homer ∧ ∀ x ∈ b'.acts.drop b.acts.length, ∃ e, x = .handled e := by
  induction rs with
  | nil =>
    intro b b' h _ hl
    simp only [loops, Option.some.injEq] at hl
    subst hl
    exact ⟨rfl, by simp⟩
  | cons r rs ih =>
    intro b b' h hp hl
    unfold loops at hl
    split at hl
    · cases hl
    · rename_i b₁ hb₁
      have hp₁ : r.expired = true → pin b.homer.theLimitSwitch r.ports = true := by
        intro hx
        exact hp _ (by simp [sampled, hx])
      obtain ⟨h1, h2, h3⟩ := loop_vain t hw hn h hp₁ hb₁
      have hp₂ : ∀ q ∈ sampled rs, pin b₁.homer.theLimitSwitch q = true := by
        intro q hq
        rw [h2]
        refine hp q ?_
        unfold sampled at hq ⊢
        rw [List.filter_cons]
        split
        · simp only [List.map_cons, List.mem_cons]; exact .inr hq
        · exact hq
      obtain ⟨h4, h5⟩ := ih h1 hp₂ hl
      have hpre₁ : b.acts <+: b₁.acts := by
        refine loops_acts t [r] ?_
        simp only [loops, hb₁]
      obtain ⟨x, hx⟩ := hpre₁
      obtain ⟨y, hy⟩ := loops_acts t rs hl
      have split₂ : b'.acts.drop b.acts.length = b₁.acts.drop b.acts.length ++ b'.acts.drop b₁.acts.length := by
        rw [← hy, ← hx]; simp
      refine ⟨h4.trans h2, fun z hz => ?_⟩
      rw [split₂] at hz
      exact (List.mem_append.1 hz).elim (h3 z) (h5 z)

end Board
end Moovr
