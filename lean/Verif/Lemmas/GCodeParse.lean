import Verif.Lemmas.GCodeMotion
/-!
# `parseBlock` as a whole
-/
namespace Moovr.GCode
open Parser

theorem Read.eq {p : Parser} (h : Read p) : p.block = ofWords p.block.words := by
  obtain ⟨t, h⟩ := h
  obtain ⟨ws, e⟩ := ofString_ofWords h
  rw [e, ofWords_words]

/-- A line with the given words. -/
theorem line {t : List Nat} {ws : List Word} (h : (Block.ofString t).map (·.words) = .ok ws) :
    Block.ofString t = .ok (ofWords ws) := by
  rcases ho : Block.ofString t with e | b
  · rw [ho] at h; simp [Except.map] at h
  · obtain ⟨ws', e⟩ := ofString_ofWords ho
    rw [ho, e] at h
    simp only [Except.map, ofWords_words, Except.ok.injEq] at h
    rw [e, h]

instance (ws : List Word) : Decidable (IsDwell ws) :=
  decidable_of_iff (HasCode ws 'G' 40 ∧ ∃ w ∈ ws, WithLetter 'P' w ∧ 0 ≤ w.number)
    ⟨fun ⟨h, w, h1, h2, h3⟩ => ⟨h, w.number, h3, w, h1, h2, rfl⟩, fun ⟨h, x, h1, w, h2, h3, h4⟩ => ⟨h, w, h2, h3, h4 ▸ h1⟩⟩

theorem parse_noViolation {p p' : Parser} {m m' : SimplifiedMotion} (h : p.parseBlock m = .ok (p', m'))
    (he : NoCollision p'.error) :
    p.block.hasModalGroupViolation = false ∧ p.block.hasLetterWordViolation = false := by
  rcases parse_split p m with ⟨-, e⟩ | ⟨-, -, e⟩ | ⟨h1, h2, -⟩
  · rw [h] at e
    have := congrArg Prod.fst (Except.ok.inj e)
    simp only at this
    rw [this] at he
    exact absurd rfl he.1
  · rw [h] at e
    have := congrArg Prod.fst (Except.ok.inj e)
    simp only at this
    rw [this] at he
    exact absurd rfl he.2
  · exact ⟨h1, h2⟩

/-- A block that does not collide and is no dwell. -/
theorem parse_ok {p p' : Parser} {m m' : SimplifiedMotion} (hb : Rest p)
    (h : p.parseBlock m = .ok (p', m')) (he : NoCollision p'.error) (hd : ¬ IsDwell p.block.words) :
    ∃ q, Keeps Kind p q ∧ Ready p.block.words p.state q.state ∧ Exec q { m with type := .none } p' m' := by
  obtain ⟨h1, h2⟩ := parse_noViolation h he
  obtain ⟨q, hk, hr, e⟩ := parse_ready hb rfl h1 h2 hd m
  rw [h] at e
  exact ⟨q, hk, hr, execute_cases e.symm⟩

theorem keeps_codes {p q : Parser} (hk : Keeps Kind p q) {k : Nat}
    (h : k ∉ [170, 180, 190, 200, 210, 540, 550, 560, 570, 580, 590, 591, 592, 593, 900, 910]) :
    HasCode q.block.words 'G' k ↔ HasCode p.block.words 'G' k := hk.hasCode fun _ hw => kind_not hw h

theorem keeps_counted {K : Word → Prop} {p q : Parser} {ws : List Word} (hb : p.block = ofWords ws) (hk : Keeps K p q) :
    Counted q.block ws := by
  rw [hk.counts, hb]
  exact ⟨(counted_ofWords ws).axis, (counted_ofWords ws).offset, (counted_ofWords ws).radius⟩

/-! ## Errors of the settings -/

theorem fail_noCollision {p : Parser} {e : ParseError} (h : NoCollision e) : NoCollision (p.fail e).error := h

/-- None of the settings reports a collision. -/
theorem settings1_error {p : Parser} (h : NoCollision p.error) : NoCollision p.settings1.error := by
  have g1 : ∀ (p : Parser) c l, (p.getWord c l).error = p.error := by
    intro p c l; unfold getWord; split <;> rfl
  have a : ∀ (p : Parser) l k f q, p.apply2 l k f = some q → q.error = p.error := by
    intro p l k f q h
    unfold apply2 at h
    rcases hs : p.block.search2 l k with _ | i
    · rw [hs] at h; simp at h
    · rw [hs] at h; rw [← Option.some.inj h]; rfl
  have ad : ∀ (p : Parser) l k f, ((p.apply2 l k f).getD p).error = p.error := by
    intro p l k f
    rcases hs : p.apply2 l k f with _ | q
    · rfl
    · exact a _ _ _ _ _ hs
  have e1 : ∀ p : Parser, p.getAxisOffsetRadiusWords.error = p.error := by
    intro p; unfold getAxisOffsetRadiusWords
    simp only
    split_ifs <;> simp only [g1]
  have e2 : ∀ p : Parser, NoCollision p.error → NoCollision p.getLineNumberWord.error := by
    intro p h; unfold getLineNumberWord
    split
    · exact fail_noCollision ⟨by decide, by decide⟩
    · split_ifs
      · exact h
      · exact fail_noCollision ⟨by decide, by decide⟩
    · exact h
  have e3 : ∀ p : Parser, p.setFeedrateMode.error = p.error := by
    intro p; unfold setFeedrateMode
    split_ifs
    · split
      · rfl
      · split <;> rfl
    · rfl
  have e4 : ∀ p : Parser, NoCollision p.error → NoCollision p.setFeedrateValue.error := by
    intro p h; unfold setFeedrateValue
    split_ifs
    · split
      · split_ifs
        · exact h
        · exact fail_noCollision ⟨by decide, by decide⟩
      · exact fail_noCollision ⟨by decide, by decide⟩
    · split
      · split_ifs
        · exact h
        · exact fail_noCollision ⟨by decide, by decide⟩
      · exact h
    · exact h
  have e5 : ∀ p : Parser, NoCollision p.error → NoCollision p.setSpindleSpeed.error := by
    intro p h; unfold setSpindleSpeed
    split_ifs
    · split
      · split_ifs
        · exact h
        · exact fail_noCollision ⟨by decide, by decide⟩
      · exact h
    · exact h
  have e6 : ∀ p : Parser, p.setSpindleMode.error = p.error := by
    intro p; unfold setSpindleMode
    split_ifs
    · split
      · exact a _ _ _ _ _ ‹_›
      · split
        · exact a _ _ _ _ _ ‹_›
        · split
          · exact a _ _ _ _ _ ‹_›
          · rfl
    · rfl
  have e7 : ∀ p : Parser, p.setCoolantMode.error = p.error := by
    intro p; unfold setCoolantMode
    split_ifs
    · simp only [ad]
    · rfl
  have e8 : ∀ p : Parser, p.setOverrideMode.error = p.error := by
    intro p; unfold setOverrideMode
    split_ifs
    · split
      · exact a _ _ _ _ _ ‹_›
      · split
        · exact a _ _ _ _ _ ‹_›
        · rfl
    · rfl
  unfold settings1
  rw [e8, e7, e6]
  refine e5 _ (e4 _ ?_)
  rw [e3]
  refine e2 _ ?_
  rw [e1]
  exact h

/-- A dwell that does not collide. -/
theorem parse_dwell {p : Parser} {ws : List Word} (m : SimplifiedMotion) (hb : Rest p) (hws : p.block.words = ws)
    (h1 : p.block.hasModalGroupViolation = false) (h2 : p.block.hasLetterWordViolation = false) (hd : IsDwell ws) :
    ∃ q x i j, Keeps Kind1 p q ∧ NoCollision q.error ∧ Ready1 ws p.state q.state ∧ 0 ≤ x ∧ HasVal ws 'P' x ∧
      q.block.search2 'G' 40 = some i ∧ q.block.search 'P' = some j ∧
      p.parseBlock m = (({ q.setLetter .P x with result := .okContextUpdateAndMotion } : Parser).moveThen { m with type := .none }
        .pauseAndResume fun p => (p.removeWord i).removeWord j) := by
  rcases parse_split p m with ⟨h, -⟩ | ⟨-, h, -⟩ | ⟨-, -, h⟩
  · rw [h1] at h; simp at h
  · rw [h2] at h; simp at h
  · set p0 : Parser := { p with result := .emptyBlock, error := .none } with hp0
    have hc : Shows p0.block p0.block.words := hb.shows
    obtain ⟨k1, r1⟩ := settings1_spec p0 hc
    change Ready1 p.block.words p.state _ at r1
    rw [hws] at r1
    have k1' : Keeps Kind1 p p0.settings1 := ⟨k1.counts, k1.words, k1.position, k1.next, k1.origin⟩
    have hG : ∀ k, HasCode p0.settings1.block.words 'G' k ↔ HasCode ws 'G' k := by
      intro k; rw [← hws]; exact k1'.hasCode fun w hw => kind1_not hw
    have hP : ∀ x, HasVal p0.settings1.block.words 'P' x ↔ HasVal ws 'P' x := by
      intro x; rw [← hws]
      refine k1'.hasVal (fun w hw h => ?_) x
      rcases hw with ⟨h', -⟩ | ⟨l, h1, h2⟩
      · unfold WithLetter at h; rw [h] at h'; revert h'; decide
      · unfold WithLetter at h h2; rw [h] at h2; revert h1 h2; cases l <;> decide
    have hne : NoCollision p0.settings1.error := settings1_error ⟨by simp [hp0], by simp [hp0]⟩
    generalize p0.settings1 = q1 at *
    rcases dwell_spec q1 { m with type := .none } with ⟨x, i, j, -, h4, h5, h6, h7, e⟩ | ⟨q2, e, hb2, hs2, hn⟩
    · refine ⟨q1, x, i, j, k1', hne, r1, h4, (hP x).1 h5, h6, h7, ?_⟩
      rcases h with ⟨r, e1, e2⟩ | ⟨q, e1, -⟩
      · rw [e] at e1; rw [e2, ← Sum.inl.inj e1]
      · rw [e] at e1; simp at e1
    · exfalso
      obtain ⟨d1, y, hy, d2⟩ := hd
      obtain ⟨w, hw, hl, hn'⟩ := (hP y).2 d2
      obtain ⟨x, hx, hv⟩ := hn ((hG 40).2 d1) ⟨w, hw, hl⟩
      have : x = y := val_unique (l := .P) (by rw [← hws]; exact hb.letters h2) (by simp) ((hP x).1 hv) d2
      rw [this] at hx
      exact absurd hy (not_le.2 hx)

/-! ## No reads outside arrays -/

theorem calcMotion_total (p : Parser) (m : SimplifiedMotion)
    (h : isArc m = true ∨ (p.block.hasOffset = false ∧ p.block.hasRadius = false)) : ∃ r, p.calcMotion m = .ok r := by
  unfold calcMotion
  simp only
  have hc : ∃ m1, p.setNext.calcArcCenter (p.setNext.setArcAxis (p.setNext.setDelta m)) = .ok m1 := by
    unfold calcArcCenter
    rcases h with h | ⟨h1, h2⟩
    · have hx : (p.setNext.setArcAxis (p.setNext.setDelta m)).trajectory.arcAxis0 < nAxis ∧
          (p.setNext.setArcAxis (p.setNext.setDelta m)).trajectory.arcAxis1 < nAxis := by
        unfold setArcAxis
        rw [if_pos (show isArc (p.setNext.setDelta m) = true from h)]
        cases p.setNext.state.modal.plane <;> simp [nAxis]
      rw [if_pos hx, if_pos hx]
      split_ifs
      · exact ⟨_, rfl⟩
      · exact ⟨_, rfl⟩
      · exact ⟨_, rfl⟩
    · rw [if_neg (show ¬ p.setNext.block.hasOffset = true by show ¬ p.block.hasOffset = true; simp [h1]),
        if_neg (show ¬ p.setNext.block.hasRadius = true by show ¬ p.block.hasRadius = true; simp [h2])]
      exact ⟨_, rfl⟩
  obtain ⟨m1, h1⟩ := hc
  rw [h1]
  exact ⟨_, rfl⟩

theorem moveThen_total (p : Parser) (m : SimplifiedMotion) (t : MotionType) (f : Parser → Parser)
    (h : (t = .feedHelicalCW ∨ t = .feedHelicalCCW) ∨ (p.block.hasOffset = false ∧ p.block.hasRadius = false)) :
    ∃ r, p.moveThen m t f = .ok r := by
  unfold moveThen
  obtain ⟨r, e⟩ := calcMotion_total p { m with type := t } (by
    rcases h with (rfl | rfl) | h
    · exact .inl rfl
    · exact .inl rfl
    · exact .inr h)
  rw [e]
  exact ⟨_, rfl⟩

theorem execute_total (q : Parser) (m : SimplifiedMotion)
    (h : (q.block.hasOffset = false ∧ q.block.hasRadius = false) ∨
      (¬ HasCode q.block.words 'G' 530 ∧ ¬ HasCode q.block.words 'G' 0 ∧ ¬ HasCode q.block.words 'G' 10 ∧
        (HasCode q.block.words 'G' 20 ∨ HasCode q.block.words 'G' 30 ∨ q.state.modal.motion = .G2 ∨ q.state.modal.motion = .G3))) :
    ∃ r, execute q m = .ok r := by
  unfold execute
  rcases h53 : q.block.search2 'G' 530 with _ | i
  · simp only
    unfold modalMove
    rcases h0 : q.block.search2 'G' 0 with _ | i
    · rcases h1 : q.block.search2 'G' 10 with _ | i
      · rcases h2 : q.block.search2 'G' 20 with _ | i
        · rcases h3 : q.block.search2 'G' 30 with _ | i
          · simp only
            by_cases ha : q.block.hasAxis = true
            · rw [if_pos ha]
              refine moveThen_total _ _ _ _ ?_
              rcases h with h | ⟨-, -, -, h | h | h | h⟩
              · exact .inr h
              · exact absurd h (search2_none.1 h2)
              · exact absurd h (search2_none.1 h3)
              · rw [h]; exact .inl (.inl rfl)
              · rw [h]; exact .inl (.inr rfl)
            · rw [if_neg ha]
              exact ⟨_, rfl⟩
          · exact moveThen_total _ _ _ _ (.inl (.inr rfl))
        · exact moveThen_total _ _ _ _ (.inl (.inl rfl))
      · simp only
        split_ifs
        · refine moveThen_total _ _ _ _ ?_
          rcases h with h | ⟨-, -, h, -⟩
          · exact .inr h
          · exact absurd (search2_ok h1) h
        · exact ⟨_, rfl⟩
    · refine moveThen_total _ _ _ _ ?_
      rcases h with h | ⟨-, h, -⟩
      · exact .inr h
      · exact absurd (search2_ok h0) h
  · simp only
    have hh : q.block.hasOffset = false ∧ q.block.hasRadius = false := by
      rcases h with h | ⟨h, -⟩
      · exact h
      · exact absurd (search2_ok h53) h
    have hm : ∃ r, q.machineMove m i = .ok r := by
      unfold machineMove
      simp only
      split
      · exact moveThen_total _ _ _ _ (.inr hh)
      · split
        · exact moveThen_total _ _ _ _ (.inr hh)
        · exact moveThen_total _ _ _ _ (.inr hh)
    obtain ⟨r, e⟩ := hm
    rw [e]
    exact ⟨_, rfl⟩

/-- Without offset and radius words nothing is read outside the arrays. -/
theorem parse_total {p : Parser} {ws : List Word} (m : SimplifiedMotion) (hr : Read p) (hb : p.block = ofWords ws)
    (h : ∀ l ∈ ['I', 'J', 'K', 'R'], ¬ HasLetter ws l) : ∃ p' m', p.parseBlock m = .ok (p', m') := by
  have hoff : ∀ b : Block, Counted b ws → b.hasOffset = false ∧ b.hasRadius = false := by
    intro b hc
    refine ⟨?_, ?_⟩
    · rw [Bool.eq_false_iff, Ne, hc.offset, not_or, not_or]
      exact ⟨h 'I' (by simp), h 'J' (by simp), h 'K' (by simp)⟩
    · rw [Bool.eq_false_iff, Ne, hc.radius]
      exact h 'R' (by simp)
  rcases parse_split p m with ⟨-, e⟩ | ⟨-, -, e⟩ | ⟨h1, h2, -⟩
  · exact ⟨_, _, e⟩
  · exact ⟨_, _, e⟩
  · by_cases hd : IsDwell ws
    · obtain ⟨q, x, i, j, hk, -, -, -, -, -, -, e⟩ := parse_dwell m hr.rest (by rw [hb, ofWords_words]) h1 h2 hd
      rw [e]
      obtain ⟨r, e'⟩ := moveThen_total ({ q.setLetter .P x with result := .okContextUpdateAndMotion } : Parser)
        { m with type := .none } .pauseAndResume (fun p => (p.removeWord i).removeWord j)
        (.inr (hoff q.block (keeps_counted hb hk)))
      exact ⟨r.1, r.2, e'⟩
    · obtain ⟨q, hk, -, e⟩ := parse_ready hr.rest (by rw [hb, ofWords_words]) h1 h2 hd m
      rw [e]
      obtain ⟨r, e'⟩ := execute_total q { m with type := .none } (.inl (hoff q.block (keeps_counted hb hk)))
      exact ⟨r.1, r.2, e'⟩

end Moovr.GCode
