import Verif.Lemmas.GCodeParse
import Verif.Spec.GCodeRun
/-!
# Executions of the G-code interpreter
-/
namespace Moovr.GCode
open Parser

/-- What a call of `parseBlock` can do. -/
inductive Outcome (p : Parser) (m : SimplifiedMotion) (p' : Parser) (m' : SimplifiedMotion) : Prop
  | collision (state : p'.state = p.state) (block : p'.block = p.block) (result : p'.result = .error)
      (error : ¬ NoCollision p'.error) (motion : m' = { m with type := .none })
  | dwell (q : Parser) (x : ℚ) (keeps : Keeps Kind1 p q) (code : HasCode q.block.words 'G' 40)
      (state : p'.state = moved (q.setLetter .P x).state (q.setLetter .P x).nextOf)
      (result : p'.result = .okContextUpdateAndMotion) (error : NoCollision p'.error)
      (motion : Motion ({ q.setLetter .P x with result := .okContextUpdateAndMotion } : Parser)
        { m with type := .pauseAndResume } m')
      (counts : p'.block = { q.block with words := p'.block.words })
      (words : ∃ r : List Word, q.block.words.Perm (r ++ p'.block.words))
  | exec (q : Parser) (keeps : Keeps Kind p q) (exec : Exec q { m with type := .none } p' m')

theorem remove_words (b : Block) (i : Nat) : ∃ r : List Word, b.words.Perm (r ++ (b.removeWord i).words) := by
  by_cases hi : i < b.words.length
  · exact ⟨[b.words[i]], remove_perm' b hi⟩
  · refine ⟨[], ?_⟩
    unfold Block.removeWord
    rw [if_neg hi]
    simp

theorem removeWord_with (b : Block) (i : Nat) (ws : List Word) :
    ({ b.removeWord i with words := ws } : Block) = { b with words := ws } := by
  unfold Block.removeWord
  split_ifs <;> rfl

theorem parse_any {p p' : Parser} {m m' : SimplifiedMotion} (h : p.parseBlock m = .ok (p', m')) : Outcome p m p' m' := by
  rcases parse_split p m with ⟨-, e⟩ | ⟨-, -, e⟩ | ⟨-, -, e⟩
  · rw [h] at e
    obtain ⟨rfl, rfl⟩ := Prod.mk.inj (Except.ok.inj e)
    exact .collision rfl rfl rfl (fun h => h.1 rfl) rfl
  · rw [h] at e
    obtain ⟨rfl, rfl⟩ := Prod.mk.inj (Except.ok.inj e)
    exact .collision rfl rfl rfl (fun h => h.2 rfl) rfl
  · set p0 : Parser := { p with result := .emptyBlock, error := .none } with hp0
    have k1 : Keeps Kind1 p0 p0.settings1 := settings1_keeps p0
    have k1' : Keeps Kind1 p p0.settings1 := ⟨k1.counts, k1.words, k1.position, k1.next, k1.origin⟩
    have hne : NoCollision p0.settings1.error := settings1_error ⟨by simp [hp0], by simp [hp0]⟩
    generalize p0.settings1 = q1 at *
    rcases dwell_spec q1 { m with type := .none } with ⟨x, i, j, h1, h4, h5, h6, h7, e1⟩ | ⟨q2, e1, hb2, hs2, -⟩
    · rw [e1] at e
      rcases e with ⟨r, e2, e3⟩ | ⟨q, e2, -⟩
      · rw [h, ← Sum.inl.inj e2] at e3
        obtain ⟨r, e4, hb, hr, he, hs, hmo⟩ := moveThen_ok e3.symm
        refine .dwell q1 x k1' h1 (by rw [e4]; exact hs) (by rw [e4]; exact hr) ?_ hmo ?_ ?_
        · rw [e4]; show NoCollision r.error; rw [he]; exact hne
        · rw [e4]
          show (r.block.removeWord i).removeWord j = { q1.block with words := ((r.block.removeWord i).removeWord j).words }
          have : r.block = q1.block := hb
          rw [this]
          exact (removeWord_counts _ j).trans (removeWord_with _ i _)
        · rw [e4]
          show ∃ r' : List Word, q1.block.words.Perm (r' ++ ((r.block.removeWord i).removeWord j).words)
          have : r.block = q1.block := hb
          rw [this]
          obtain ⟨r1, h1⟩ := remove_words q1.block i
          obtain ⟨r2, h2⟩ := remove_words (q1.block.removeWord i) j
          exact ⟨r1 ++ r2, by rw [List.append_assoc]; exact h1.trans (h2.append_left r1)⟩
      · simp at e2
    · have e' : p.parseBlock m = execute q2.settings2.changeData { m with type := .none } := by
        rcases e with ⟨r, h1, -⟩ | ⟨q, h1, h2⟩
        · rw [e1] at h1; simp at h1
        · rw [e1] at h1; rw [h2, Sum.inr.inj h1]
      have k2 : Keeps Kind1 p q2 := by
        refine ⟨?_, ?_, ?_, ?_, ?_⟩
        · rw [hb2]; exact k1'.counts
        · rw [hb2]; exact k1'.words
        · rw [hs2]; exact k1'.position
        · rw [hs2]; exact k1'.next
        · rw [hs2]; exact k1'.origin
      obtain ⟨k3, s3⟩ := settings2_spec q2
      obtain ⟨b4, s4⟩ := changeData_spec q2.settings2
      have := k2.trans k3
      rw [h] at e'
      refine .exec q2.settings2.changeData ?_ (execute_cases e'.symm)
      refine ⟨?_, ?_, ?_, ?_, ?_⟩
      · rw [b4]; exact this.counts
      · rw [b4]; exact this.words
      · rw [s4]; exact this.position
      · rw [s4]; exact this.next
      · rw [s4]; exact this.origin

/-- Every call keeps the counts of the block and consumes words. -/
theorem parse_words {p p' : Parser} {m m' : SimplifiedMotion} (h : p.parseBlock m = .ok (p', m')) :
    p'.block = { p.block with words := p'.block.words } ∧ ∃ r : List Word, p.block.words.Perm (r ++ p'.block.words) := by
  have via : ∀ {K : Word → Prop} {q : Parser}, Keeps K p q → p'.block = { q.block with words := p'.block.words } →
      (∃ r : List Word, q.block.words.Perm (r ++ p'.block.words)) →
      p'.block = { p.block with words := p'.block.words } ∧ ∃ r : List Word, p.block.words.Perm (r ++ p'.block.words) := by
    intro K q hk hc ⟨r, hr⟩
    obtain ⟨r', -, hr'⟩ := hk.words
    refine ⟨?_, r' ++ r, ?_⟩
    · conv_lhs => rw [hc, hk.counts]
    · rw [List.append_assoc]; exact hr'.trans (hr.append_left r')
  rcases parse_any h with ⟨_, b, _⟩ | ⟨q, x, hk, _, _, _, _, _, hc, hw⟩ | ⟨q, hk, hx⟩
  · rw [b]; exact ⟨rfl, [], by simp⟩
  · exact via hk hc hw
  · rcases hx with ⟨_, _, _, _, _, _, _, w, hc⟩ | ⟨_, _, _, _, _, _, _, _, _, _, ⟨w, _, hp⟩, hc⟩ | ⟨_, _, _, _, _, _, _, w, hc⟩ |
      ⟨_, _, _, _, _, _, _, w⟩ | ⟨_, _, _, _, _, _, _, w, hc⟩
    · exact via hk hc ⟨q.block.words, by rw [w]; simp⟩
    · exact via hk hc ⟨[w], hp⟩
    · exact via hk hc ⟨q.block.words, by rw [w]; simp⟩
    · exact via hk (by rw [w]) ⟨[], by rw [w]; simp⟩
    · exact via hk hc ⟨q.block.words, by rw [w]; simp⟩

theorem Rest.parse {p p' : Parser} {m m' : SimplifiedMotion} (hr : Rest p) (h : p.parseBlock m = .ok (p', m')) : Rest p' := by
  obtain ⟨t, b, hb, e, r, hp⟩ := hr
  obtain ⟨hc, r', hr'⟩ := parse_words h
  refine ⟨t, b, hb, ?_, r ++ r', ?_⟩
  · conv_lhs => rw [hc, e]
  · rw [List.append_assoc]; exact hp.trans (hr'.append_left r)

/-- The position before and after a call. -/
theorem parse_position {p p' : Parser} {m m' : SimplifiedMotion} (h : p.parseBlock m = .ok (p', m')) :
    (p'.state.currentPosition = p.state.currentPosition ∧ ¬ Reported p'.result) ∨
    (∀ i, i < 3 → m'.trajectory.startPosition i = num (p.state.currentPosition i) ∧
      m'.trajectory.delta i = num (p'.state.currentPosition i - p.state.currentPosition i)) ∧
      ((m'.type.moves = true ∧ (HasCode p.block.words 'G' 530 ∨ Reported p'.result)) ∨
       (m'.type = .pauseAndResume ∧ Reported p'.result ∧ HasCode p.block.words 'G' 40)) := by
  have mo : ∀ {K : Word → Prop} {q q' : Parser} {m1 : SimplifiedMotion}, Keeps K p q → Motion q' m1 m' →
      q'.state.currentPosition = q.state.currentPosition → p'.state.currentPosition = (moved q.state q'.nextOf).currentPosition →
      ∀ i, i < 3 → m'.trajectory.startPosition i = num (p.state.currentPosition i) ∧
        m'.trajectory.delta i = num (p'.state.currentPosition i - p.state.currentPosition i) := by
    intro K q q' m1 hk hm hq hp i hi
    rw [hm.start i hi, hm.delta i hi, hq, hk.position, hp]
    refine ⟨rfl, ?_⟩
    show num _ = num ((if i < 3 then q'.nextOf i else _) - _)
    rw [if_pos hi]
  rcases parse_any h with ⟨s, _, r, _⟩ | ⟨q, x, hk, hc, s, r, _, hm, _, _⟩ | ⟨q, hk, hx⟩
  · exact .inl ⟨by rw [s], by rw [r]; simp [Reported]⟩
  · refine .inr ⟨mo hk hm rfl (by rw [s]; rfl), .inr ⟨hm.type, .inl r, ?_⟩⟩
    exact (hk.hasCode fun w hw => kind1_not hw).1 hc
  · rcases hx with ⟨t, c, ht, s, hm, r, _⟩ | ⟨_, mode, _, _, _, _, s, hm, r, _⟩ | ⟨_, _, _, s, _, r, _⟩ | ⟨_, _, _, s, hm, r, _⟩ |
      ⟨_, _, _, s, _, r, _⟩
    · refine .inr ⟨mo hk hm rfl (by rw [s]), .inl ⟨?_, .inl ?_⟩⟩
      · rw [hm.type]; rcases ht with ⟨-, rfl⟩ | ⟨-, rfl⟩ <;> rfl
      · exact (keeps_codes hk (by decide)).1 c
    · refine .inr ⟨mo hk hm rfl (by rw [s]; rfl), .inl ⟨?_, .inr (.inl r)⟩⟩
      rw [hm.type]; cases mode <;> rfl
    · exact .inl ⟨by rw [s]; exact hk.position, by rw [r]; simp [Reported]⟩
    · refine .inr ⟨mo hk hm rfl (by rw [s]), .inl ⟨?_, .inr (.inl r)⟩⟩
      rw [hm.type]; cases q.state.modal.motion <;> rfl
    · exact .inl ⟨by rw [s]; exact hk.position, by rw [r]; simp [Reported]⟩

/-- The origins of the work coordinate sets never change. -/
theorem parse_origin {p p' : Parser} {m m' : SimplifiedMotion} (h : p.parseBlock m = .ok (p', m')) :
    p'.state.wcsOrigin = p.state.wcsOrigin := by
  rcases parse_any h with ⟨s, _⟩ | ⟨q, x, hk, hc, s, _⟩ | ⟨q, hk, hx⟩
  · rw [s]
  · rw [s]; exact hk.origin
  · rcases hx with ⟨_, _, _, s, _⟩ | ⟨_, _, _, _, _, _, s, _⟩ | ⟨_, _, _, s, _⟩ | ⟨_, _, _, s, _⟩ | ⟨_, _, _, s, _⟩ <;> rw [s] <;>
      exact hk.origin

theorem getBlock_ok {p p' : Parser} {t : List Nat} (h : p.getBlock t = .ok p') :
    Block.ofString t = .ok p'.block ∧ p'.state = p.state := by
  unfold getBlock at h
  rcases hb : Block.ofString t with e | b
  · rw [hb] at h; simp [Except.map] at h
  · rw [hb] at h
    simp only [Except.map, Except.ok.injEq] at h
    rw [← h]
    exact ⟨rfl, rfl⟩

/-- In an execution from reset every block is a read one, and the origins are zero. -/
theorem run_rest {m₀ m : SimplifiedMotion} {p : Parser} {log} (h : Run .reset m₀ log p m) :
    (Rest p ∧ p.state.wcsOrigin = fun _ _ => 0) ∧
    ∀ e ∈ log, Rest e.1 ∧ (e.1.state.wcsOrigin = fun _ _ => 0) ∧ ∃ m, e.1.parseBlock m = .ok (e.2.1, e.2.2) := by
  induction h with
  | start =>
    refine ⟨⟨⟨[], _, line (ws := []) (by decide +kernel), rfl, [], .refl _⟩, rfl⟩, by simp⟩
  | line t _ hb ih =>
    obtain ⟨h1, h2⟩ := getBlock_ok hb
    exact ⟨⟨Read.rest ⟨t, h1⟩, by rw [h2]; exact ih.1.2⟩, ih.2⟩
  | parse _ hp ih =>
    refine ⟨⟨ih.1.1.parse hp, by rw [parse_origin hp]; exact ih.1.2⟩, fun e he => ?_⟩
    rcases List.mem_append.1 he with he | he
    · exact ih.2 e he
    · rw [List.mem_singleton.1 he]
      exact ⟨ih.1.1, ih.1.2, _, hp⟩

theorem connected_append {x y z : Nat → Num} {m : SimplifiedMotion} {ms : List SimplifiedMotion} (h : Connected x ms y)
    (hs : ∀ i, i < 3 → m.trajectory.startPosition i = y i) (he : ∀ i, i < 3 → endOf m i = z i) : Connected x (ms ++ [m]) z := by
  induction ms generalizing x with
  | nil => exact ⟨fun i hi => (hs i hi).trans (h i hi).symm, he⟩
  | cons a ms ih => exact ⟨h.1, ih h.2⟩

theorem connected_congr {x y z : Nat → Num} {ms : List SimplifiedMotion} (h : Connected x ms y)
    (he : ∀ i, i < 3 → y i = z i) : Connected x ms z := by
  induction ms generalizing x with
  | nil => exact fun i hi => (h i hi).trans (he i hi)
  | cons a ms ih => exact ⟨h.1, ih h.2⟩

end Moovr.GCode
