import Verif.Lemmas.GCodeReady
/-!
# Executing a block
-/
namespace Moovr.GCode
open Parser

/-! ## Settings, for any block -/

theorem keeps_ite {K : Word → Prop} {p q : Parser} {c : Prop} [Decidable c] (h : Keeps K p q) :
    Keeps K p (if c then q else p) := by
  split_ifs
  · exact h
  · exact .refl K p

theorem getWord_kind1 (p : Parser) (l : Letter) (h : l ∈ [Letter.X, .Y, .Z, .I, .J, .K, .R, .N, .F, .S]) :
    Keeps Kind1 p (p.getWord (charOf l) l) :=
  (getWord_spec p _ l).1.mono fun _ hw => .inr ⟨l, h, hw⟩

theorem Keeps.then {K : Word → Prop} {p q r : Parser} (h : Keeps K p q) (h' : Keeps K q r) : Keeps K p r :=
  (h.trans h').mono fun _ => or_self_iff.1

theorem settings1_keeps (p : Parser) : Keeps Kind1 p p.settings1 := by
  have h1 : Keeps Kind1 p p.getAxisOffsetRadiusWords := by
    unfold getAxisOffsetRadiusWords
    refine Keeps.then (q := if p.block.hasAxis then ((p.getWord 'X' .X).getWord 'Y' .Y).getWord 'Z' .Z else p)
      (keeps_ite ?_) ?_
    · exact ((getWord_kind1 p .X (by simp)).then (getWord_kind1 _ .Y (by simp))).then (getWord_kind1 _ .Z (by simp))
    · simp only
      generalize (if p.block.hasAxis then ((p.getWord 'X' .X).getWord 'Y' .Y).getWord 'Z' .Z else p) = q
      refine Keeps.then (q := if q.block.hasOffset then ((q.getWord 'I' .I).getWord 'J' .J).getWord 'K' .K else q)
        (keeps_ite ?_) ?_
      · exact ((getWord_kind1 q .I (by simp)).then (getWord_kind1 _ .J (by simp))).then (getWord_kind1 _ .K (by simp))
      · exact keeps_ite (getWord_kind1 _ .R (by simp))
  have h2 : ∀ q : Parser, Keeps Kind1 q q.getLineNumberWord := fun q =>
    (getLineNumberWord_spec q).1.mono fun _ hw => .inr ⟨.N, by simp, hw⟩
  have h3 : ∀ q : Parser, Keeps Kind1 q q.setFeedrateMode := fun q => by
    obtain ⟨b, s⟩ := setFeedrateMode_spec q
    exact ⟨by rw [b], ⟨[], by simp, by simp [b]⟩, by rw [s], by rw [s], by rw [s]⟩
  have h4 : ∀ q : Parser, Keeps Kind1 q q.setFeedrateValue := fun q =>
    (setFeedrateValue_spec q).1.mono fun _ hw => .inr ⟨.F, by simp, hw⟩
  have h5 : ∀ q : Parser, Keeps Kind1 q q.setSpindleSpeed := fun q =>
    (setSpindleSpeed_spec q).1.mono fun _ hw => .inr ⟨.S, by simp, hw⟩
  have h6 : ∀ q : Parser, Keeps Kind1 q q.setSpindleMode := fun q => by
    rw [setSpindleMode_eq]
    exact (chain_spec q 'M' spindleTable).1.mono fun _ hw => .inl ⟨hw.1, by
      have := hw.2; simp [spindleTable] at this ⊢; omega⟩
  have h7 : ∀ q : Parser, Keeps Kind1 q q.setCoolantMode := fun q =>
    (coolant_spec q).1.mono fun _ hw => .inl ⟨hw.1, by have := hw.2; simp at this ⊢; omega⟩
  have h8 : ∀ q : Parser, Keeps Kind1 q q.setOverrideMode := fun q => by
    rw [setOverrideMode_eq]
    exact (chain_spec q 'M' overrideTable).1.mono fun _ hw => .inl ⟨hw.1, by
      have := hw.2; simp [overrideTable] at this ⊢; omega⟩
  exact ((((((h1.then (h2 _)).then (h3 _)).then (h4 _)).then (h5 _)).then (h6 _)).then (h7 _)).then (h8 _)

/-! ## The dwell -/

theorem dwell_spec (p : Parser) (m : SimplifiedMotion) :
    (∃ x i j, HasCode p.block.words 'G' 40 ∧ 0 ≤ x ∧ HasVal p.block.words 'P' x ∧ p.block.search2 'G' 40 = some i ∧
      p.block.search 'P' = some j ∧ p.dwell m = .inl (({ p.setLetter .P x with result := .okContextUpdateAndMotion } : Parser).moveThen m
        .pauseAndResume fun p => (p.removeWord i).removeWord j)) ∨
    (∃ q, p.dwell m = .inr q ∧ q.block = p.block ∧ q.state = p.state ∧
      (HasCode p.block.words 'G' 40 → HasLetter p.block.words 'P' → ∃ x, x < 0 ∧ HasVal p.block.words 'P' x)) := by
  unfold dwell
  by_cases hw : p.block.hasWords = true
  · rw [if_pos hw]
    rcases hg : p.block.search2 'G' 40 with _ | i
    · exact .inr ⟨p, rfl, rfl, rfl, fun hc => absurd hc (search2_none.1 hg)⟩
    · rcases hp : p.block.search 'P' with _ | j
      · exact .inr ⟨_, rfl, rfl, rfl, fun _ hc => absurd hc (search_none.1 hp)⟩
      · obtain ⟨w, h1, h2, h3⟩ := search_some hp
        simp only
        split_ifs with h0
        · exact .inl ⟨_, i, j, (search2_some hg).1, h0, by rw [h2]; exact hasVal_of_perm h1 h3, rfl, rfl, rfl⟩
        · exact .inr ⟨_, rfl, rfl, rfl, fun _ _ => ⟨_, not_le.1 h0, by rw [h2]; exact hasVal_of_perm h1 h3⟩⟩
  · rw [if_neg hw]
    exact .inr ⟨p, rfl, rfl, rfl, fun hc => absurd (hasWords_of_hasCode hc) hw⟩

/-! ## The motion -/

/-- The part of `parseBlock` after the settings. -/
noncomputable def execute (p : Parser) (m : SimplifiedMotion) : Except Fault (Parser × SimplifiedMotion) :=
  match p.block.search2 'G' 530 with
  | some i => (p.machineMove m i).map fun r => (r.1.leftOver, r.2)
  | none =>
    match p.modalMove m with
    | some r => r
    | none => .ok (p.leftOver, m)

/-- `parseBlock` returns early (collision or dwell), or executes a block in a new state. -/
theorem parse_split (p : Parser) (m : SimplifiedMotion) :
    (p.block.hasModalGroupViolation = true ∧
      p.parseBlock m = .ok (({ p with result := .emptyBlock, error := .none } : Parser).fail .modalGroupCollision, { m with type := .none })) ∨
    (p.block.hasModalGroupViolation = false ∧ p.block.hasLetterWordViolation = true ∧
      p.parseBlock m = .ok (({ p with result := .emptyBlock, error := .none } : Parser).fail .valueWordCollision, { m with type := .none })) ∨
    (p.block.hasModalGroupViolation = false ∧ p.block.hasLetterWordViolation = false ∧
      ((∃ r, ({ p with result := .emptyBlock, error := .none } : Parser).settings1.dwell { m with type := .none } = .inl r ∧
          p.parseBlock m = r) ∨
       (∃ q, ({ p with result := .emptyBlock, error := .none } : Parser).settings1.dwell { m with type := .none } = .inr q ∧
          p.parseBlock m = execute q.settings2.changeData { m with type := .none }))) := by
  unfold parseBlock
  simp only
  by_cases h1 : p.block.hasModalGroupViolation = true
  · exact .inl ⟨h1, by rw [if_pos h1]⟩
  · rw [if_neg h1]
    by_cases h2 : p.block.hasLetterWordViolation = true
    · exact .inr (.inl ⟨by simpa using h1, h2, by rw [if_pos h2]⟩)
    · rw [if_neg h2]
      refine .inr (.inr ⟨by simpa using h1, by simpa using h2, ?_⟩)
      rcases ({ p with result := .emptyBlock, error := .none } : Parser).settings1.dwell { m with type := .none } with r | q
      · exact .inl ⟨r, rfl, rfl⟩
      · refine .inr ⟨q, rfl, ?_⟩
        simp only [execute]
        generalize q.settings2.changeData = q'
        cases q'.block.search2 'G' 530
        · cases q'.modalMove { m with type := .none } <;> rfl
        · rfl

/-- The state in which a block is executed. -/
structure Ready (ws : List Word) (s s' : State) : Prop where
  modal : s'.modal = { s.modal with
    feedRate := pick ws 'G' feedModes s.modal.feedRate
    spindle := pick ws 'M' spindleModes s.modal.spindle
    coolantFlood := pick ws 'M' floodModes s.modal.coolantFlood
    coolantMist := pick ws 'M' mistModes s.modal.coolantMist
    manualOverride := pick ws 'M' overrideModes s.modal.manualOverride
    plane := pick ws 'G' planeModes s.modal.plane
    unit := pick ws 'G' unitModes s.modal.unit
    coordinateSet := pick ws 'G' coordModes s.modal.coordinateSet
    distance := pick ws 'G' distanceModes s.modal.distance }
  letters : ∀ l ∈ [Letter.X, .Y, .Z, .I, .J, .K, .R], Reads ws s.letterValue s'.letterValue l
  feed : (∃ x, 0 < x ∧ HasVal ws 'F' x ∧ s'.letterValue .F = x) ∨
    ((HasLetter ws 'F' → ∃ x, x ≤ 0 ∧ HasVal ws 'F' x) ∧
      ((HasCode ws 'G' 930 ∨ HasCode ws 'G' 940) → s'.letterValue .F = 0) ∧
      (¬ (HasCode ws 'G' 930 ∨ HasCode ws 'G' 940) → s'.letterValue .F = s.letterValue .F))
  speed : (∃ x, 0 ≤ x ∧ HasVal ws 'S' x ∧ s'.letterValue .S = x) ∨
    ((HasLetter ws 'S' → ∃ x, x < 0 ∧ HasVal ws 'S' x) ∧ s'.letterValue .S = s.letterValue .S)
  other : ∀ l ∈ [Letter.P, .L, .T], s'.letterValue l = s.letterValue l

/-- Kinds of words removed by settings. -/
def Kind (w : Word) : Prop := Kind1 w ∨ Kind2 w

theorem kind1_not {w : Word} {k : Nat} (h : Kind1 w) : ¬ Code 'G' k w := by
  rintro ⟨h1, -⟩
  rcases h with ⟨h, -⟩ | ⟨l, hl, h⟩
  · rw [h1] at h; revert h; decide
  · unfold WithLetter at h
    rw [h1] at h
    revert hl h
    cases l <;> decide

theorem kind2_not {w : Word} {k : Nat} (h : Kind2 w)
    (hk : k ∉ [170, 180, 190, 200, 210, 540, 550, 560, 570, 580, 590, 591, 592, 593, 900, 910]) : ¬ Code 'G' k w := by
  rintro ⟨-, h2⟩
  exact hk (h2 ▸ h.2)

/-- Codes not removed by settings are still there. -/
theorem kind_not {w : Word} {k : Nat} (h : Kind w)
    (hk : k ∉ [170, 180, 190, 200, 210, 540, 550, 560, 570, 580, 590, 591, 592, 593, 900, 910]) : ¬ Code 'G' k w :=
  h.elim kind1_not fun h => kind2_not h hk

set_option maxHeartbeats 1000000 in
/-- A block without collisions that is no dwell is executed in the state given by its words. -/
theorem parse_ready {p : Parser} {ws : List Word} (hb : Rest p) (hws : p.block.words = ws) (hg : p.block.hasModalGroupViolation = false)
    (hl : p.block.hasLetterWordViolation = false) (hd : ¬ (HasCode ws 'G' 40 ∧ ∃ x, 0 ≤ x ∧ HasVal ws 'P' x))
    (m : SimplifiedMotion) :
    ∃ q, Keeps Kind p q ∧ Ready ws p.state q.state ∧ p.parseBlock m = execute q { m with type := .none } := by
  rcases parse_split p m with ⟨h, -⟩ | ⟨-, h, -⟩ | ⟨-, -, h⟩
  · rw [hg] at h; simp at h
  · rw [hl] at h; simp at h
  · set p0 : Parser := { p with result := .emptyBlock, error := .none } with hp0
    have hc : Shows p0.block p0.block.words := hb.shows
    obtain ⟨k1, r1⟩ := settings1_spec p0 hc
    change Ready1 p.block.words p.state _ at r1
    rw [hws] at r1
    have k1' : Keeps Kind1 p p0.settings1 := ⟨k1.counts, k1.words, k1.position, k1.next, k1.origin⟩
    have hG : ∀ k, HasCode p0.settings1.block.words 'G' k ↔ HasCode ws 'G' k := by
      intro k; rw [← hws]; exact k1'.hasCode fun w hw => kind1_not hw
    have hP : ∀ x, HasVal p0.settings1.block.words 'P' x ↔ HasVal ws 'P' x := by
      intro x; rw [← hws]
      refine k1'.hasVal (fun w hw h => ?_) x
      rcases hw with ⟨h', -⟩ | ⟨l, h1, h2⟩
      · unfold WithLetter at h; rw [h] at h'; revert h'; decide
      · unfold WithLetter at h h2; rw [h] at h2; revert h1 h2; cases l <;> decide
    generalize p0.settings1 = q1 at *
    rcases dwell_spec q1 { m with type := .none } with ⟨x, i, j, h1, h2, h3, -⟩ | ⟨q2, e, hb2, hs2, -⟩
    · exact absurd ⟨(hG 40).1 h1, x, h2, (hP x).1 h3⟩ hd
    · replace h : p.parseBlock m = execute q2.settings2.changeData { m with type := .none } := by
        rcases h with ⟨r, h1, -⟩ | ⟨q, h1, h2⟩
        · rw [e] at h1; simp at h1
        · rw [e] at h1; rw [h2, Sum.inr.inj h1]
      have k2 : Keeps Kind1 p q2 := by
        refine ⟨?_, ?_, ?_, ?_, ?_⟩
        · rw [hb2]; exact k1'.counts
        · rw [hb2]; exact k1'.words
        · rw [hs2]; exact k1'.position
        · rw [hs2]; exact k1'.next
        · rw [hs2]; exact k1'.origin
      obtain ⟨k3, s3⟩ := settings2_spec q2
      obtain ⟨b4, s4⟩ := changeData_spec q2.settings2
      refine ⟨q2.settings2.changeData, ?_, ?_, h⟩
      · have := k2.trans k3
        refine ⟨?_, ?_, ?_, ?_, ?_⟩
        · rw [b4]; exact this.counts
        · rw [b4]; exact this.words
        · rw [s4]; exact this.position
        · rw [s4]; exact this.next
        · rw [s4]; exact this.origin
      · have hpk : ∀ {α : Type} (t : List (Nat × α)) (a : α), pick q2.block.words 'G' t a = pick ws 'G' t a := by
          intro α t a
          exact pick_congr fun k v _ => by rw [hb2]; exact hG k
        rw [s4, s3]
        simp only [hpk, hs2]
        exact ⟨by simp only [r1.modal], r1.letters, r1.feed, r1.speed, r1.other⟩

end Moovr.GCode
