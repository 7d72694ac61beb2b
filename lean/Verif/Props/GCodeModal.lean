import Mathlib.Tactic.IntervalCases
import Verif.Lemmas.GCodeRun
import Verif.Props.GCodeText
/-!
# Properties of interpreting G-code: collisions, modal settings, peripherals, dwell, results (C45, C46, C54, C55, C56)
-/
namespace Moovr.Props
open GCode GCode.Parser

/-- The parser in a state, with a line read. -/
def withLine (s : State) (ws : List Word) : Parser := ⟨ofWords ws, s, .emptyBlock, .none⟩

/-! ## C45 -/

/-- A rejected block: error, no motion, state unchanged. -/
def Rejected (p : Parser) (m : SimplifiedMotion) (e : ParseError) : Prop :=
  ∃ p', p.parseBlock m = .ok (p', { m with type := .none }) ∧ p'.result = .error ∧ p'.error = e ∧ p'.state = p.state

theorem sum_pair_le {α : Type} {f : α → Nat} {l : List α} {u v : α} (h : [u, v].Sublist l) : f u + f v ≤ (l.map f).sum := by
  have := (h.map f).sum_le_sum (fun _ _ => Nat.zero_le _)
  simpa using this

theorem rejected_group {p : Parser} (m : SimplifiedMotion) (hr : Read p) {g : ModalGroup} {P : Word → Prop}
    (h : Twice P p.block.words) (hP : ∀ w, P w → g ∈ Block.groupsOf w) : Rejected p m .modalGroupCollision := by
  have hv : p.block.hasModalGroupViolation = true := by
    obtain ⟨u, v, hs, hu, hv⟩ := h
    rw [hr.eq]
    unfold Block.hasModalGroupViolation
    rw [List.any_eq_true]
    refine ⟨g, by cases g <;> simp [ModalGroup.all], ?_⟩
    unfold ofWords
    rw [foldl_group, decide_eq_true_eq]
    have h1 := sum_pair_le (f := fun w => (Block.groupsOf w).count g) hs
    have h2 := List.count_pos_iff.2 (hP u hu)
    have h3 := List.count_pos_iff.2 (hP v hv)
    omega
  rcases parse_split p m with ⟨-, e⟩ | ⟨h, -⟩ | ⟨h, -⟩
  · exact ⟨_, e, rfl, rfl, rfl⟩
  · rw [hv] at h; simp at h
  · rw [hv] at h; simp at h

theorem ite_all {α : Type} (P : α → Prop) {c : Prop} [Decidable c] {a b : α} (ha : P a) (hb : P b) : P (if c then a else b) := by
  by_cases h : c
  · rw [if_pos h]; exact ha
  · rw [if_neg h]; exact hb

theorem groupsOf_nodup (w : Word) : (Block.groupsOf w).Nodup := by
  unfold Block.groupsOf
  repeat' first | decide | refine ite_all List.Nodup ?_ ?_

theorem groupsOf_G {w : Word} (h : WithLetter 'G' w) :
    ∀ x ∈ Block.groupsOf w, x ∉ [ModalGroup.spindle, .coolantFlood, .coolantMist] := by
  unfold Block.groupsOf
  rw [if_pos (show w.letter = 'G'.toNat from h)]
  repeat' first | decide |
    refine ite_all (fun l => ∀ x ∈ l, x ∉ [ModalGroup.spindle, .coolantFlood, .coolantMist]) ?_ ?_

theorem groupsOf_M {w : Word} (h : WithLetter 'M' w) :
    ∀ x ∈ Block.groupsOf w, x ∈ [ModalGroup.spindle, .coolantFlood, .coolantMist] := by
  unfold Block.groupsOf
  rw [if_neg (show ¬ w.letter = 'G'.toNat by rw [show w.letter = 'M'.toNat from h]; decide),
    if_pos (show w.letter = 'M'.toNat from h)]
  repeat' first | decide |
    refine ite_all (fun l => ∀ x ∈ l, x ∈ [ModalGroup.spindle, .coolantFlood, .coolantMist]) ?_ ?_

theorem groupsOf_code {l : Char} {k : Nat} {w : Word} (h : Code l k w) : Block.groupsOf w = Block.groupsOf ⟨l.toNat, 0, k⟩ := by
  unfold Block.groupsOf
  rw [h.1, h.2]

theorem inGroup_mem {α : Type} {t : GroupTable α} {g : ModalGroup} {w : Word} (hw : InGroup t w)
    (ht : ∀ e ∈ t, g ∈ Block.groupsOf ⟨e.1.toNat, 0, e.2.1⟩) : g ∈ Block.groupsOf w := by
  obtain ⟨e, he, hc⟩ := hw
  rw [groupsOf_code hc]; exact ht e he

/-- **C45**, partial: a line with two words of the same modal group (motion, plane, distance, feed rate mode, units, work
coordinates G54 to G59, spindle, each coolant), or with the same letter twice (any letter except T), is rejected with the
corresponding error, has no motion and leaves the complete state as it was. Missing: G59.1 to G59.3, M48/M49 and T, for which it
is false (`collisions_violated`). -/
theorem collisions_rejected_partial {p : Parser} (m : SimplifiedMotion) (hr : Read p) :
    (Twice (InGroup motionGroup) p.block.words → Rejected p m .modalGroupCollision) ∧
    (Twice (InGroup planeGroup) p.block.words → Rejected p m .modalGroupCollision) ∧
    (Twice (InGroup distanceGroup) p.block.words → Rejected p m .modalGroupCollision) ∧
    (Twice (InGroup feedGroup) p.block.words → Rejected p m .modalGroupCollision) ∧
    (Twice (InGroup unitGroup) p.block.words → Rejected p m .modalGroupCollision) ∧
    (Twice (InGroup (coordGroup.take 6)) p.block.words → Rejected p m .modalGroupCollision) ∧
    (Twice (InGroup spindleGroup) p.block.words → Rejected p m .modalGroupCollision) ∧
    (Twice (InGroup floodGroup) p.block.words → Rejected p m .modalGroupCollision) ∧
    (Twice (InGroup mistGroup) p.block.words → Rejected p m .modalGroupCollision) ∧
    (∀ l ∈ "FLNPRSXYZIJK".toList, Twice (WithLetter l) p.block.words →
      Rejected p m .valueWordCollision ∨ Rejected p m .modalGroupCollision) ∧
    (∀ l ∈ "FLNPRSXYZIJK".toList, Twice (WithLetter l) p.block.words → ¬ Twice (WithLetter 'G') p.block.words →
      ¬ Twice (WithLetter 'M') p.block.words → Rejected p m .valueWordCollision) := by
  have key : ∀ l ∈ "FLNPRSXYZIJK".toList, Twice (WithLetter l) p.block.words → p.block.hasLetterWordViolation = true := by
    intro l hl ⟨u, v, hs, hu, hv⟩
    obtain ⟨x, hx, rfl⟩ : ∃ x : Letter, x ≠ .T ∧ charOf x = l := by
      rw [show "FLNPRSXYZIJK".toList = ['F', 'L', 'N', 'P', 'R', 'S', 'X', 'Y', 'Z', 'I', 'J', 'K'] from rfl] at hl
      simp only [List.mem_cons, List.not_mem_nil, or_false] at hl
      rcases hl with rfl | rfl | rfl | rfl | rfl | rfl | rfl | rfl | rfl | rfl | rfl | rfl
      exacts [⟨.F, by simp, rfl⟩, ⟨.L, by simp, rfl⟩, ⟨.N, by simp, rfl⟩, ⟨.P, by simp, rfl⟩, ⟨.R, by simp, rfl⟩,
        ⟨.S, by simp, rfl⟩, ⟨.X, by simp, rfl⟩, ⟨.Y, by simp, rfl⟩, ⟨.Z, by simp, rfl⟩, ⟨.I, by simp, rfl⟩,
        ⟨.J, by simp, rfl⟩, ⟨.K, by simp, rfl⟩]
    rw [hr.eq]
    unfold Block.hasLetterWordViolation
    rw [List.any_eq_true]
    refine ⟨x, by cases x <;> simp [Letter.all], ?_⟩
    unfold ofWords
    rw [foldl_letter, decide_eq_true_eq]
    have h1 := hs.countP_le (p := fun w => decide (letterOf w = some x))
    have e1 : decide (letterOf u = some x) = true := by simpa using (letterOf_iff hx).2 hu
    have e2 : decide (letterOf v = some x) = true := by simpa using (letterOf_iff hx).2 hv
    simp only [List.countP_cons, List.countP_nil, e1, e2, if_true] at h1
    omega
  refine ⟨fun h => rejected_group m hr h fun w hw => inGroup_mem (g := .motion) hw (by decide),
    fun h => rejected_group m hr h fun w hw => inGroup_mem (g := .plane) hw (by decide),
    fun h => rejected_group m hr h fun w hw => inGroup_mem (g := .distance) hw (by decide),
    fun h => rejected_group m hr h fun w hw => inGroup_mem (g := .feedRate) hw (by decide),
    fun h => rejected_group m hr h fun w hw => inGroup_mem (g := .unit) hw (by decide),
    fun h => rejected_group m hr h fun w hw => inGroup_mem (g := .coordinateSet) hw (by decide),
    fun h => rejected_group m hr h fun w hw => inGroup_mem (g := .spindle) hw (by decide),
    fun h => rejected_group m hr h fun w hw => inGroup_mem (g := .coolantMist) hw (by decide),
    fun h => rejected_group m hr h fun w hw => inGroup_mem (g := .coolantFlood) hw (by decide), ?_, ?_⟩
  · intro l hl h
    rcases parse_split p m with ⟨-, e⟩ | ⟨-, -, e⟩ | ⟨-, h2, -⟩
    · exact .inr ⟨_, e, rfl, rfl, rfl⟩
    · exact .inl ⟨_, e, rfl, rfl, rfl⟩
    · rw [key l hl h] at h2; simp at h2
  · intro l hl h hG hM
    rcases parse_split p m with ⟨hv, -⟩ | ⟨-, -, e⟩ | ⟨-, h2, -⟩
    · exfalso
      rw [hr.eq] at hv
      unfold Block.hasModalGroupViolation ofWords at hv
      rw [List.any_eq_true] at hv
      obtain ⟨g, -, hg⟩ := hv
      rw [foldl_group, decide_eq_true_eq] at hg
      simp only [Block.empty, Nat.zero_add] at hg
      -- with at most one G and one M word, every group has at most one word
      have one : ∀ (c : Char) (ws : List Word), ¬ Twice (WithLetter c) ws → ws.countP (fun w => decide (WithLetter c w)) ≤ 1 := by
        intro c ws
        induction ws with
        | nil => simp
        | cons a ws ih =>
          intro hn
          have hn' : ¬ Twice (WithLetter c) ws := fun ⟨u, v, hs, hu, hv⟩ => hn ⟨u, v, hs.cons a, hu, hv⟩
          rw [List.countP_cons]
          by_cases ha : WithLetter c a
          · have : ws.countP (fun w => decide (WithLetter c w)) = 0 := by
              rw [List.countP_eq_zero]
              intro w hw hc
              exact hn ⟨a, w, List.Sublist.cons_cons a (List.singleton_sublist.2 hw), ha, by simpa using hc⟩
            rw [this]; split_ifs <;> omega
          · rw [if_neg (by simpa using ha)]
            exact ih hn'
      have cnt : ∀ w : Word, (Block.groupsOf w).count g ≤
          (if WithLetter 'G' w then (Block.groupsOf w).count g else 0) + (if WithLetter 'M' w then (Block.groupsOf w).count g else 0) := by
        intro w
        by_cases h1 : WithLetter 'G' w
        · rw [if_pos h1]; omega
        · by_cases h2 : WithLetter 'M' w
          · rw [if_pos h2]; omega
          · have : Block.groupsOf w = [] := by
              unfold Block.groupsOf
              rw [if_neg (show ¬ w.letter = 'G'.toNat from h1), if_neg (show ¬ w.letter = 'M'.toNat from h2)]
            rw [this]; simp
      have nodup : ∀ w : Word, (Block.groupsOf w).count g ≤ 1 := by
        intro w
        exact List.nodup_iff_count_le_one.1 (groupsOf_nodup w) g
      have disj : ∀ u v : Word, WithLetter 'G' u → WithLetter 'M' v → (Block.groupsOf u).count g = 0 ∨ (Block.groupsOf v).count g = 0 := by
        intro u v hu hv
        have h1 := groupsOf_G hu
        have h2 := groupsOf_M hv
        by_cases hg : g ∈ [ModalGroup.spindle, .coolantFlood, .coolantMist]
        · exact .inl (List.count_eq_zero.2 fun h => h1 g h hg)
        · exact .inr (List.count_eq_zero.2 fun h => hg (h2 g h))
      have bound : ∀ (c : Char) (ws : List Word), (ws.map fun w => if WithLetter c w then (Block.groupsOf w).count g else 0).sum ≤
          ws.countP (fun w => decide (WithLetter c w)) := by
        intro c ws
        induction ws with
        | nil => simp
        | cons a ws ih =>
          rw [List.map_cons, List.sum_cons, List.countP_cons]
          have := nodup a
          by_cases ha : WithLetter c a
          · simp only [ha, if_true, decide_true] at *; omega
          · simp only [ha, if_false, decide_false] at *; simpa using ih
      have split : ∀ ws : List Word, (ws.map fun w => (Block.groupsOf w).count g).sum ≤
          (ws.map fun w => if WithLetter 'G' w then (Block.groupsOf w).count g else 0).sum +
          (ws.map fun w => if WithLetter 'M' w then (Block.groupsOf w).count g else 0).sum := by
        intro ws
        induction ws with
        | nil => simp
        | cons a ws ih => simp only [List.map_cons, List.sum_cons]; have := cnt a; omega
      have b1 := (bound 'G' p.block.words).trans (one _ _ hG)
      have b2 := (bound 'M' p.block.words).trans (one _ _ hM)
      have b3 := split p.block.words
      have p1 : ∃ u ∈ p.block.words, WithLetter 'G' u ∧ 0 < (Block.groupsOf u).count g := by
        by_contra hc
        have : (p.block.words.map fun w => if WithLetter 'G' w then (Block.groupsOf w).count g else 0).sum = 0 := by
          rw [List.sum_eq_zero_iff]
          intro x hx
          obtain ⟨w, hw, rfl⟩ := List.mem_map.1 hx
          split_ifs with h1
          · by_contra h0; exact hc ⟨w, hw, h1, by omega⟩
          · rfl
        omega
      have p2 : ∃ u ∈ p.block.words, WithLetter 'M' u ∧ 0 < (Block.groupsOf u).count g := by
        by_contra hc
        have : (p.block.words.map fun w => if WithLetter 'M' w then (Block.groupsOf w).count g else 0).sum = 0 := by
          rw [List.sum_eq_zero_iff]
          intro x hx
          obtain ⟨w, hw, rfl⟩ := List.mem_map.1 hx
          split_ifs with h1
          · by_contra h0; exact hc ⟨w, hw, h1, by omega⟩
          · rfl
        omega
      obtain ⟨u, -, hu, hu0⟩ := p1
      obtain ⟨v, -, hv, hv0⟩ := p2
      rcases disj u v hu hv with h | h <;> omega
    · exact ⟨_, e, rfl, rfl, rfl⟩
    · rw [key l hl h] at h2; simp at h2

/-- "G0 G1 X1" is rejected in every state. -/
example (m : SimplifiedMotion) (p : Parser) (hp : Block.ofString (codes "G0 G1 X1") = .ok p.block) :
    Rejected p m .modalGroupCollision := by
  refine (collisions_rejected_partial m ⟨_, hp⟩).1 ?_
  have : Block.ofString (codes "G0 G1 X1") = .ok (ofWords [⟨71, 0, 0⟩, ⟨71, 1, 10⟩, ⟨88, 1, 0⟩]) := line (by decide +kernel)
  rw [hp] at this
  rw [Except.ok.inj this, ofWords_words]
  exact ⟨⟨71, 0, 0⟩, ⟨71, 1, 10⟩, by decide, ⟨('G', 0, .G0), by decide, by decide⟩, ⟨('G', 10, .G1), by decide, by decide⟩⟩

/-- **C45** is false for M48 with M49, G54 with G59.1, and two T words: accepted without an error. -/
theorem collisions_violated : ∀ t ∈ ["M48 M49", "G54 G59.1", "T1 T2"], ∃ (p p' : Parser) (m m' : SimplifiedMotion),
    Block.ofString (codes t) = .ok p.block ∧ p.state = .initial ∧ p.parseBlock m = .ok (p', m') ∧ p'.result = .okContextUpdateOnly ∧ p'.error = .none := by
  have key : ∀ (t : String) (ws : List Word), (Block.ofString (codes t)).map (·.words) = .ok ws →
      (ofWords ws).hasModalGroupViolation = false → (ofWords ws).hasLetterWordViolation = false → ¬ HasCode ws 'G' 40 →
      (∀ k ∈ [0, 10, 20, 30, 530], ¬ HasCode ws 'G' k) → (∀ l ∈ ['X', 'Y', 'Z', 'I', 'J', 'K', 'R'], ¬ HasLetter ws l) →
      ∃ (p p' : Parser) (m m' : SimplifiedMotion), Block.ofString (codes t) = .ok p.block ∧ p.state = .initial ∧ p.parseBlock m = .ok (p', m') ∧
        p'.result = .okContextUpdateOnly ∧ p'.error = .none := by
    intro t ws ht h1 h2 hd hk hl
    refine ⟨withLine .initial ws, ?_⟩
    obtain ⟨p', m', e⟩ := parse_total (SimplifiedMotion.fresh 3) (p := withLine .initial ws) (ws := ws) ⟨_, line ht⟩ rfl
      fun l h => hl l (by simp only [List.mem_cons, List.not_mem_nil, or_false] at h ⊢; tauto)
    refine ⟨p', SimplifiedMotion.fresh 3, m', line ht, rfl, e, ?_⟩
    obtain ⟨q, hq, -, e'⟩ := parse_ready (p := withLine .initial ws) (Read.rest ⟨_, line ht⟩) (ofWords_words ws) h1 h2 (fun h => hd h.1) (SimplifiedMotion.fresh 3)
    rw [e] at e'
    have hc := keeps_counted (p := withLine .initial ws) rfl hq
    rcases execute_cases e'.symm with ⟨_, c, _⟩ | ⟨k, mode, ht', _, c, _⟩ | ⟨_, c, _⟩ | ⟨_, _, ax, _⟩ | ⟨_, _, _, _, _, r1, r2, _⟩
    · exact absurd ((ofWords_words ws) ▸ (keeps_codes hq (by decide)).1 c : HasCode ws 'G' _) (hk 530 (by simp))
    · exfalso
      simp only [List.mem_cons, List.not_mem_nil, or_false, Prod.mk.injEq] at ht'
      rcases ht' with ⟨rfl, -⟩ | ⟨rfl, -⟩ | ⟨rfl, -⟩ | ⟨rfl, -⟩
      · exact hk 0 (by simp) ((ofWords_words ws) ▸ (keeps_codes hq (by decide)).1 c : HasCode ws 'G' _)
      · exact hk 10 (by simp) ((ofWords_words ws) ▸ (keeps_codes hq (by decide)).1 c : HasCode ws 'G' _)
      · exact hk 20 (by simp) ((ofWords_words ws) ▸ (keeps_codes hq (by decide)).1 c : HasCode ws 'G' _)
      · exact hk 30 (by simp) ((ofWords_words ws) ▸ (keeps_codes hq (by decide)).1 c : HasCode ws 'G' _)
    · exact absurd ((ofWords_words ws) ▸ (keeps_codes hq (by decide)).1 c : HasCode ws 'G' _) (hk 10 (by simp))
    · rw [hc.axis] at ax
      rcases ax with h | h | h
      · exact absurd h (hl 'X' (by simp))
      · exact absurd h (hl 'Y' (by simp))
      · exact absurd h (hl 'Z' (by simp))
    · exact ⟨r1, r2⟩
  intro t ht
  simp only [List.mem_cons, List.not_mem_nil, or_false] at ht
  rcases ht with rfl | rfl | rfl
  · exact key _ [⟨77, 48, 480⟩, ⟨77, 49, 490⟩] (by decide +kernel) (by decide +kernel) (by decide +kernel) (by decide +kernel)
      (by decide +kernel) (by decide +kernel)
  · exact key _ [⟨71, 54, 540⟩, ⟨71, 591 / 10, 591⟩] (by decide +kernel) (by decide +kernel) (by decide +kernel)
      (by decide +kernel) (by decide +kernel) (by decide +kernel)
  · exact key _ [⟨84, 1, 0⟩, ⟨84, 2, 0⟩] (by decide +kernel) (by decide +kernel) (by decide +kernel) (by decide +kernel)
      (by decide +kernel) (by decide +kernel)

/-! ## C46 -/

theorem setBy_pick {α : Type} {t : GroupTable α} {l : Char} {tbl : List (Nat × α)} {ws : List Word} {old : α}
    (h1 : ∀ e ∈ t, e.1 = l ∧ (e.2.1, e.2.2) ∈ tbl) (h2 : ∀ e ∈ tbl, (l, e.1, e.2) ∈ t)
    (hu : ∀ e ∈ tbl, ∀ e' ∈ tbl, HasCode ws l e.1 → HasCode ws l e'.1 → e'.2 = e.2) : SetBy t ws old (pick ws l tbl old) := by
  refine ⟨fun e he hc => ?_, fun hn => ?_⟩
  · obtain ⟨rfl, hm⟩ := h1 e he
    exact pick_one hm hc fun k' v' hk' hc' => hu _ hm _ hk' hc hc'
  · exact pick_none fun k v hk => hn _ (h2 _ hk)

theorem unique_of_group {α : Type} {ws : List Word} {l : Char} {tbl : List (Nat × α)} {g : ModalGroup}
    (hv : (ofWords ws).hasModalGroupViolation = false) (hg : ∀ e ∈ tbl, g ∈ Block.groupsOf ⟨l.toNat, 0, e.1⟩)
    (hf : ∀ e ∈ tbl, ∀ e' ∈ tbl, e.1 = e'.1 → e'.2 = e.2) :
    ∀ e ∈ tbl, ∀ e' ∈ tbl, HasCode ws l e.1 → HasCode ws l e'.1 → e'.2 = e.2 := by
  rintro e he e' he' ⟨w, hw, hc⟩ ⟨w', hw', hc'⟩
  have : w = w' := group_unique hv hw hw' (by rw [groupsOf_code hc]; exact hg e he) (by rw [groupsOf_code hc']; exact hg e' he')
  refine hf e he e' he' ?_
  rw [← hc.2, ← hc'.2, this]

/-- With at most one word of a group. -/
theorem unique_of_once {α : Type} {ws : List Word} {l : Char} {tbl : List (Nat × α)} {t : GroupTable α}
    (h2 : ∀ e ∈ tbl, (l, e.1, e.2) ∈ t) (hf : ∀ e ∈ tbl, ∀ e' ∈ tbl, e.1 = e'.1 → e'.2 = e.2)
    (h : ¬ Twice (InGroup t) ws) : ∀ e ∈ tbl, ∀ e' ∈ tbl, HasCode ws l e.1 → HasCode ws l e'.1 → e'.2 = e.2 := by
  rintro e he e' he' ⟨w, hw, hc⟩ ⟨w', hw', hc'⟩
  refine hf e he e' he' ?_
  by_contra hne
  have hww : w ≠ w' := by rintro rfl; exact hne (hc.2.symm.trans hc'.2)
  have i1 : InGroup t w := ⟨_, h2 e he, hc⟩
  have i2 : InGroup t w' := ⟨_, h2 e' he', hc'⟩
  obtain ⟨a, b, rfl⟩ := List.append_of_mem hw
  rcases List.mem_append.1 hw' with h' | h'
  · refine h ⟨w', w, ?_, i2, i1⟩
    exact (List.singleton_sublist.2 h').append (List.singleton_sublist.2 (by simp) : [w].Sublist (w :: b))
  · rcases List.mem_cons.1 h' with h' | h'
    · exact hww h'.symm
    · refine h ⟨w, w', ?_, i1, i2⟩
      exact ((List.singleton_sublist.2 h').cons_cons w).trans (List.sublist_append_right a _)

/-- The settings of the groups that a dwell can change too. -/
structure Settings1 (ws : List Word) (old new : Modal) : Prop where
  feed : SetBy feedGroup ws old.feedRate new.feedRate
  spindle : SetBy spindleGroup ws old.spindle new.spindle
  flood : SetBy floodGroup ws old.coolantFlood new.coolantFlood
  mist : SetBy mistGroup ws old.coolantMist new.coolantMist
  override : ¬ Twice (InGroup overrideGroup) ws → SetBy overrideGroup ws old.manualOverride new.manualOverride

/-- The settings of the other groups (except the motion mode). -/
structure Settings2 (ws : List Word) (old new : Modal) : Prop where
  plane : SetBy planeGroup ws old.plane new.plane
  unit : SetBy unitGroup ws old.unit new.unit
  coord : ¬ Twice (InGroup coordGroup) ws → SetBy coordGroup ws old.coordinateSet new.coordinateSet
  distance : SetBy distanceGroup ws old.distance new.distance

theorem settings1_of_pick {ws : List Word} (hv : (ofWords ws).hasModalGroupViolation = false) {old new : Modal}
    (h1 : new.feedRate = pick ws 'G' feedModes old.feedRate) (h2 : new.spindle = pick ws 'M' spindleModes old.spindle)
    (h3 : new.coolantFlood = pick ws 'M' floodModes old.coolantFlood)
    (h4 : new.coolantMist = pick ws 'M' mistModes old.coolantMist)
    (h5 : new.manualOverride = pick ws 'M' overrideModes old.manualOverride) : Settings1 ws old new := by
  refine ⟨?_, ?_, ?_, ?_, ?_⟩
  · rw [h1]; exact setBy_pick (by decide) (by decide) (unique_of_group (g := .feedRate) hv (by decide) (by decide))
  · rw [h2]; exact setBy_pick (by decide) (by decide) (unique_of_group (g := .spindle) hv (by decide) (by decide))
  · rw [h3]; exact setBy_pick (by decide) (by decide) (unique_of_group (g := .coolantMist) hv (by decide) (by decide))
  · rw [h4]; exact setBy_pick (by decide) (by decide) (unique_of_group (g := .coolantFlood) hv (by decide) (by decide))
  · intro ho
    rw [h5]; exact setBy_pick (by decide) (by decide) (unique_of_once (t := overrideGroup) (by decide) (by decide) ho)

theorem settings2_of_pick {ws : List Word} (hv : (ofWords ws).hasModalGroupViolation = false) {old new : Modal}
    (h1 : new.plane = pick ws 'G' planeModes old.plane) (h2 : new.unit = pick ws 'G' unitModes old.unit)
    (h3 : new.coordinateSet = pick ws 'G' coordModes old.coordinateSet)
    (h4 : new.distance = pick ws 'G' distanceModes old.distance) : Settings2 ws old new := by
  refine ⟨?_, ?_, ?_, ?_⟩
  · rw [h1]; exact setBy_pick (by decide) (by decide) (unique_of_group (g := .plane) hv (by decide) (by decide))
  · rw [h2]; exact setBy_pick (by decide) (by decide) (unique_of_group (g := .unit) hv (by decide) (by decide))
  · intro ho
    rw [h3]; exact setBy_pick (by decide) (by decide) (unique_of_once (t := coordGroup) (by decide) (by decide) ho)
  · rw [h4]; exact setBy_pick (by decide) (by decide) (unique_of_group (g := .distance) hv (by decide) (by decide))

/-- Executing a block changes no modal group except the motion mode. -/
theorem exec_modal {q p' : Parser} {m m' : SimplifiedMotion} (h : Exec q m p' m') :
    p'.state.modal = { q.state.modal with motion := p'.state.modal.motion } := by
  rcases h with ⟨_, _, _, s, _⟩ | ⟨k, mode, _, _, _, _, s, _⟩ | ⟨_, _, _, s, _⟩ | ⟨_, _, _, s, _⟩ | ⟨_, _, _, s, _⟩ <;> rw [s] <;> rfl

/-- **C46**, partial: after a block that did not collide and is no dwell, the setting of every modal group is the one named by a
word of the block, if there is one, and otherwise the one before. The motion mode: if there is no G53. Missing: dwells
(only the groups of `Settings1`: `dwell_settings`), and the motion mode named beside G53, where it is false
(`modal_settings_violated`); the work coordinate set and the override when two of their words are in the block, which is not
rejected (`collisions_violated`). -/
theorem modal_settings_partial {p p' : Parser} {m m' : SimplifiedMotion} (hr : Rest p)
    (h : p.parseBlock m = .ok (p', m')) (he : NoCollision p'.error) (hd : ¬ IsDwell p.block.words) :
    Settings1 p.block.words p.state.modal p'.state.modal ∧ Settings2 p.block.words p.state.modal p'.state.modal ∧
    (¬ HasCode p.block.words 'G' 530 → SetBy motionGroup p.block.words p.state.modal.motion p'.state.modal.motion) := by
  obtain ⟨hv, -⟩ := parse_noViolation h he
  obtain ⟨q, hk, hq, hx⟩ := parse_ok hr h he hd
  replace hv := hr.groups hv
  have hm := exec_modal hx
  have hqm := hq.modal
  refine ⟨settings1_of_pick hv (by rw [hm, hqm]) (by rw [hm, hqm]) (by rw [hm, hqm]) (by rw [hm, hqm]) (by rw [hm, hqm]),
    settings2_of_pick hv (by rw [hm, hqm]) (by rw [hm, hqm]) (by rw [hm, hqm]) (by rw [hm, hqm]), fun h53 => ?_⟩
  have hG : ∀ k ∈ [0, 10, 20, 30], HasCode q.block.words 'G' k ↔ HasCode p.block.words 'G' k := by
    intro k hk'
    refine keeps_codes hk ?_
    simp only [List.mem_cons, List.not_mem_nil, or_false] at hk'
    rcases hk' with rfl | rfl | rfl | rfl <;> decide
  have hold : q.state.modal.motion = p.state.modal.motion := by rw [hqm]
  have named : ∀ k mode, (k, mode) ∈ [(0, MotionMode.G0), (10, .G1), (20, .G2), (30, .G3)] → HasCode p.block.words 'G' k →
      SetBy motionGroup p.block.words p.state.modal.motion mode := by
    intro k mode ht hc
    refine ⟨fun e he' hc' => ?_, fun hn => absurd hc (hn ('G', k, mode) ?_)⟩
    · have hl : e.1 = 'G' ∧ (e.2.1, e.2.2) ∈ [(0, MotionMode.G0), (10, .G1), (20, .G2), (30, .G3)] := by
        clear hc'; revert e; decide
      rw [hl.1] at hc'
      exact (unique_of_group (g := .motion) hv (by decide) (by decide) _ ht _ hl.2 hc hc').symm
    · revert ht; revert mode
      intro mode ht
      simp only [List.mem_cons, List.not_mem_nil, or_false, Prod.mk.injEq] at ht
      rcases ht with ⟨rfl, rfl⟩ | ⟨rfl, rfl⟩ | ⟨rfl, rfl⟩ | ⟨rfl, rfl⟩ <;> decide
  have kept : (∀ k ∈ [0, 10, 20, 30], ¬ HasCode p.block.words 'G' k) →
      SetBy motionGroup p.block.words p.state.modal.motion p.state.modal.motion := by
    intro hn
    refine ⟨fun e he' hc => ?_, fun _ => rfl⟩
    exfalso
    have hl : e.1 = 'G' ∧ e.2.1 ∈ [0, 10, 20, 30] := by clear hc; revert e; decide
    rw [hl.1] at hc
    exact hn _ hl.2 hc
  rcases hx with ⟨_, c, _⟩ | ⟨k, mode, ht, _, c, _, s, _⟩ | ⟨_, c, _, s, _⟩ | ⟨_, c, _, s, _⟩ | ⟨_, c, _, s, _⟩
  · exact absurd ((keeps_codes hk (by decide)).1 c) h53
  · rw [s]
    refine named k mode ht ((hG k ?_).1 c)
    simp only [List.mem_cons, List.not_mem_nil, or_false, Prod.mk.injEq] at ht ⊢
    omega
  · rw [s]
    exact named 10 .G1 (by decide) ((hG 10 (by simp)).1 c)
  · rw [s]
    show SetBy _ _ _ q.state.modal.motion
    rw [hold]
    exact kept fun k hk' => fun hc => c k hk' ((hG k hk').2 hc)
  · rw [s, hold]
    exact kept fun k hk' => fun hc => c k hk' ((hG k hk').2 hc)

/-- The line "G18 G91 G1 X1 F60 M3" sets the plane, distance mode, motion mode and spindle and nothing else. -/
example {p p' : Parser} {m m' : SimplifiedMotion}
    (hp : Block.ofString (codes "G18 G91 G1 X1 F60 M3") = .ok p.block) (hs : p.state = .initial)
    (h : p.parseBlock m = .ok (p', m')) (he : NoCollision p'.error) : p'.state.modal.plane = .G18 ∧
    p'.state.modal.distance = .G91 ∧ p'.state.modal.motion = .G1 ∧ p'.state.modal.spindle = .M3 ∧ p'.state.modal.unit = .G21 := by
  have hw : Block.ofString (codes "G18 G91 G1 X1 F60 M3") =
    .ok (ofWords [⟨71, 18, 180⟩, ⟨71, 91, 910⟩, ⟨71, 1, 10⟩, ⟨88, 1, 0⟩, ⟨70, 60, 0⟩, ⟨77, 3, 30⟩]) := line (by decide +kernel)
  rw [hp] at hw
  have e : p.block.words = [⟨71, 18, 180⟩, ⟨71, 91, 910⟩, ⟨71, 1, 10⟩, ⟨88, 1, 0⟩, ⟨70, 60, 0⟩, ⟨77, 3, 30⟩] := by
    rw [Except.ok.inj hw, ofWords_words]
  obtain ⟨h1, h2, h3⟩ := modal_settings_partial (Read.rest ⟨_, hp⟩) h he (by rw [e]; decide +kernel)
  rw [e] at h1 h2 h3
  refine ⟨h2.plane.named ('G', 180, .G18) (by decide) (by decide +kernel), h2.distance.named ('G', 910, .G91) (by decide) (by decide +kernel),
    (h3 (by decide +kernel)).named ('G', 10, .G1) (by decide) (by decide +kernel),
    h1.spindle.named ('M', 30, .M3) (by decide) (by decide +kernel), ?_⟩
  have := h2.unit.kept (by decide +kernel)
  rw [this, hs]; rfl

theorem setLetter_other {p : Parser} {k l : Letter} {x : ℚ} (h : k ≠ l) :
    (p.setLetter l x).state.letterValue k = p.state.letterValue k := if_neg h

/-- A dwell that did not collide, and its motion. -/
theorem dwell_state {p p' : Parser} {m m' : SimplifiedMotion} (hr : Rest p) (h : p.parseBlock m = .ok (p', m'))
    (he : NoCollision p'.error) (hd : IsDwell p.block.words) :
    ∃ q x, Keeps Kind1 p q ∧ Ready1 p.block.words p.state q.state ∧ 0 ≤ x ∧ HasVal p.block.words 'P' x ∧
      p'.state = moved (q.setLetter .P x).state (q.setLetter .P x).nextOf ∧ p'.result = .okContextUpdateAndMotion ∧
      GCode.Motion ({ q.setLetter .P x with result := .okContextUpdateAndMotion } : Parser) { m with type := .pauseAndResume } m' := by
  obtain ⟨h1, h2⟩ := parse_noViolation h he
  obtain ⟨q, x, i, j, hk, -, hq, hx, hv, -, -, e⟩ := parse_dwell m hr rfl h1 h2 hd
  rw [h] at e
  obtain ⟨r, e', -, hr', -, hs, hm⟩ := moveThen_ok e.symm
  refine ⟨q, x, hk, hq, hx, hv, ?_, ?_, hm⟩
  · rw [e']; exact hs
  · rw [e']; exact hr'

/-- A dwell sets the groups before it in `parseBlock` and keeps the others, among them the motion mode. -/
theorem dwell_settings {p p' : Parser} {m m' : SimplifiedMotion} (hr : Rest p) (h : p.parseBlock m = .ok (p', m'))
    (he : NoCollision p'.error) (hd : IsDwell p.block.words) :
    Settings1 p.block.words p.state.modal p'.state.modal ∧ p'.state.modal.motion = p.state.modal.motion ∧
    p'.state.modal.plane = p.state.modal.plane ∧ p'.state.modal.unit = p.state.modal.unit ∧
    p'.state.modal.coordinateSet = p.state.modal.coordinateSet ∧ p'.state.modal.distance = p.state.modal.distance := by
  obtain ⟨hv, -⟩ := parse_noViolation h he
  replace hv := hr.groups hv
  obtain ⟨q, x, hk, hq, -, -, hs, -⟩ := dwell_state hr h he hd
  have hm : p'.state.modal = q.state.modal := by rw [hs]; rfl
  rw [hm, hq.modal]
  exact ⟨settings1_of_pick hv rfl rfl rfl rfl rfl, rfl, rfl, rfl, rfl, rfl⟩

/-- Interpreting a line without collisions and without I, J, K, R words in a state. -/
theorem runs (s : State) {t : String} {ws : List Word} (ht : (Block.ofString (codes t)).map (·.words) = .ok ws)
    (h1 : (ofWords ws).hasModalGroupViolation = false) (h2 : (ofWords ws).hasLetterWordViolation = false)
    (hl : ∀ l ∈ ['I', 'J', 'K', 'R'], ¬ HasLetter ws l) (m : SimplifiedMotion) :
    Block.ofString (codes t) = .ok (withLine s ws).block ∧ Read (withLine s ws) ∧ (withLine s ws).block.words = ws ∧
    ∃ p' m', (withLine s ws).parseBlock m = .ok (p', m') ∧ NoCollision p'.error := by
  have hb := line ht
  refine ⟨hb, ⟨_, hb⟩, ofWords_words ws, ?_⟩
  obtain ⟨p', m', e⟩ := parse_total m (p := withLine s ws) (ws := ws) ⟨_, hb⟩ rfl hl
  refine ⟨p', m', e, ?_⟩
  by_cases hd : IsDwell ws
  · obtain ⟨q, x, i, j, hk, hne, hq, hx, hv, -, -, e'⟩ := parse_dwell (p := withLine s ws) m (Read.rest ⟨_, hb⟩) (ofWords_words ws) h1 h2 hd
    rw [e] at e'
    obtain ⟨r, e'', -, -, he, -, -⟩ := moveThen_ok e'.symm
    rw [e'']
    show NoCollision r.error
    rw [he]; exact hne
  · obtain ⟨q, -, -, e'⟩ := parse_ready (p := withLine s ws) (Read.rest ⟨_, hb⟩) (ofWords_words ws) h1 h2 hd m
    rw [e] at e'
    rcases execute_cases e'.symm with ⟨_, _, _, _, _, _, r, _⟩ | ⟨k, mode, _, _, _, _, _, _, _, r, _⟩ | ⟨_, _, _, _, _, _, r, _⟩ |
      ⟨_, _, _, _, _, _, r, _⟩ | ⟨_, _, _, _, _, _, r, _⟩ <;> rw [r] <;> exact ⟨by simp, by simp⟩

/-- A block with a result other than "error" did not collide. -/
theorem noCollision_of {p p' : Parser} {m m' : SimplifiedMotion} (hr : Rest p) (h : p.parseBlock m = .ok (p', m'))
    (he : p'.result ≠ .error) : NoCollision p'.error := by
  rcases parse_split p m with ⟨-, e⟩ | ⟨-, -, e⟩ | ⟨h1, h2, -⟩
  · rw [h] at e
    have := (Prod.mk.inj (Except.ok.inj e)).1
    rw [this] at he; exact absurd rfl he
  · rw [h] at e
    have := (Prod.mk.inj (Except.ok.inj e)).1
    rw [this] at he; exact absurd rfl he
  · by_cases hd : IsDwell p.block.words
    · obtain ⟨q, x, i, j, hk, hne, hq, hx, hv, -, -, e'⟩ := parse_dwell m hr rfl h1 h2 hd
      rw [h] at e'
      obtain ⟨r, e'', -, -, he, -, -⟩ := moveThen_ok e'.symm
      rw [e'']
      show NoCollision r.error
      rw [he]; exact hne
    · obtain ⟨q, -, -, e'⟩ := parse_ready hr rfl h1 h2 hd m
      rw [h] at e'
      rcases execute_cases e'.symm with ⟨_, _, _, _, _, _, r, _⟩ | ⟨k, mode, _, _, _, _, _, _, _, r, _⟩ |
        ⟨_, _, _, _, _, _, r, _⟩ | ⟨_, _, _, _, _, _, r, _⟩ | ⟨_, _, _, _, _, _, r, _⟩ <;> rw [r] <;> exact ⟨by simp, by simp⟩

/-- What a setting of the spindle or coolant reads like in the result of `calcPeripherals`. -/
theorem peripherals_of {q : Parser} {m m' : SimplifiedMotion} (h : m'.peripherals = (q.calcPeripherals m).peripherals) {s : State}
    (hm : s.modal.spindle = q.state.modal.spindle ∧ s.modal.coolantFlood = q.state.modal.coolantFlood ∧
      s.modal.coolantMist = q.state.modal.coolantMist) (hS : s.letterValue .S = q.state.letterValue .S) :
    m'.peripherals.spindleSpeed = (if s.modal.spindle = .M5 then Num.fin 0 else num (s.letterValue .S)) ∧
    m'.peripherals.spindleDirection = (if s.modal.spindle = .M4 then .counterClockwise else .clockwise) ∧
    m'.peripherals.coolantFlood = decide (s.modal.coolantFlood = .M7) ∧
    m'.peripherals.coolantMist = decide (s.modal.coolantMist = .M8) := by
  rw [h, hm.1, hm.2.1, hm.2.2, hS]
  refine ⟨?_, ?_, rfl, rfl⟩
  · show (if _ then _ else _) = _
    cases q.state.modal.spindle <;> simp
  · show (if _ then _ else _) = _
    cases q.state.modal.spindle <;> simp

/-- Counterexamples to **C46**: "G4 P1 G91" leaves the distance mode absolute, "G53 G1 X1" the motion mode G0. Neither is
rejected. -/
theorem modal_settings_violated :
    (∃ (p p' : Parser) (m m' : SimplifiedMotion), p.state = .initial ∧
      Block.ofString (codes "G4 P1 G91") = .ok p.block ∧ p.parseBlock m = .ok (p', m') ∧ p'.result ≠ .error ∧
      ¬ SetBy distanceGroup p.block.words p.state.modal.distance p'.state.modal.distance) ∧
    (∃ (p p' : Parser) (m m' : SimplifiedMotion), p.state = .initial ∧
      Block.ofString (codes "G53 G1 X1") = .ok p.block ∧ p.parseBlock m = .ok (p', m') ∧ p'.result ≠ .error ∧
      ¬ SetBy motionGroup p.block.words p.state.modal.motion p'.state.modal.motion) := by
  constructor
  · obtain ⟨h1, h2, h3, p', m', h4, h5⟩ := runs .initial (t := "G4 P1 G91") (ws := [⟨71, 4, 40⟩, ⟨80, 1, 0⟩, ⟨71, 91, 910⟩])
      (by decide +kernel) (by decide +kernel) (by decide +kernel) (by decide +kernel) (.fresh 3)
    refine ⟨_, p', _, m', rfl, h1, h4, ?_, ?_⟩
    · obtain ⟨_, _, _, _, _, _, _, hr, _⟩ := dwell_state h2.rest h4 h5 (by rw [h3]; decide +kernel)
      rw [hr]; decide
    · intro hs
      have := hs.named ('G', 910, .G91) (by decide) (by rw [h3]; decide +kernel)
      rw [(dwell_settings h2.rest h4 h5 (by rw [h3]; decide +kernel)).2.2.2.2.2] at this
      exact absurd this (by decide)
  · obtain ⟨h1, h2, h3, p', m', h4, h5⟩ := runs .initial (t := "G53 G1 X1") (ws := [⟨71, 53, 530⟩, ⟨71, 1, 10⟩, ⟨88, 1, 0⟩])
      (by decide +kernel) (by decide +kernel) (by decide +kernel) (by decide +kernel) (.fresh 3)
    obtain ⟨q, hk, hq, hx⟩ := parse_ok h2.rest h4 h5 (by rw [h3]; decide +kernel)
    have hc : HasCode q.block.words 'G' 530 := (keeps_codes hk (by decide)).2 (by rw [h3]; decide +kernel)
    rcases hx with ⟨_, c, _, s, _, r, _⟩ | ⟨k, mode, _, n, _⟩ | ⟨n, _⟩ | ⟨n, _⟩ | ⟨n, _⟩
    · refine ⟨_, p', _, m', rfl, h1, h4, by rw [r]; decide, fun hs => ?_⟩
      have := hs.named ('G', 10, .G1) (by decide) (by rw [h3]; decide +kernel)
      rw [s] at this
      change q.state.modal.motion = _ at this
      rw [hq.modal] at this
      exact absurd this (by decide)
    all_goals exact absurd hc n

/-! ## C54 -/

/-- The spindle speed in force. -/
structure SpeedBy (ws : List Word) (old new : ℚ) : Prop where
  named : ∀ x, 0 ≤ x → HasVal ws 'S' x → new = x
  kept : ¬ HasLetter ws 'S' → new = old

theorem speedBy_of {ws : List Word} (hv : (ofWords ws).hasLetterWordViolation = false) {s s' : State}
    (h : (∃ x, 0 ≤ x ∧ HasVal ws 'S' x ∧ s'.letterValue .S = x) ∨
      ((HasLetter ws 'S' → ∃ x, x < 0 ∧ HasVal ws 'S' x) ∧ s'.letterValue .S = s.letterValue .S)) :
    SpeedBy ws (s.letterValue .S) (s'.letterValue .S) := by
  refine ⟨fun x hx hx' => ?_, fun hn => ?_⟩
  · rcases h with ⟨y, hy, hy', e⟩ | ⟨hl, e⟩
    · rw [e]; exact val_unique (l := .S) hv (by simp) hy' hx'
    · obtain ⟨w, hw, h1, h2⟩ := hx'
      obtain ⟨y, hy, hy'⟩ := hl ⟨w, hw, h1⟩
      have := val_unique (l := .S) hv (by simp) hy' ⟨w, hw, h1, h2⟩
      rw [this] at hy
      exact absurd hx (not_le.2 hy)
  · rcases h with ⟨y, hy, ⟨w, hw, h1, h2⟩, e⟩ | ⟨hl, e⟩
    · exact absurd ⟨w, hw, h1⟩ hn
    · exact e

/-- **C54**, partial: every motion of an accepted block (dwells included) carries the spindle direction and speed and the coolant
flags of the settings in force in its block; these are the ones named in the block (`SetBy`, `SpeedBy`) or else the ones before.
M3/M4/M5 change nothing but the spindle, M7 only the flood flag, M8 only the mist flag, M9 both. Missing: the standard (and the
collision check in gcodeblock.cpp) has M7 for mist and M8 for flood (`coolant_violated`). -/
theorem peripherals_partial {p p' : Parser} {m m' : SimplifiedMotion} (hr : Rest p) (h : p.parseBlock m = .ok (p', m'))
    (he : p'.result ≠ .error) (hm : m'.type ≠ .none) :
    ∃ spindle flood mist S,
      SetBy spindleGroup p.block.words p.state.modal.spindle spindle ∧
      SetBy floodGroup p.block.words p.state.modal.coolantFlood flood ∧
      SetBy mistGroup p.block.words p.state.modal.coolantMist mist ∧
      SpeedBy p.block.words (p.state.letterValue .S) S ∧
      p'.state.modal.spindle = spindle ∧ p'.state.modal.coolantFlood = flood ∧ p'.state.modal.coolantMist = mist ∧
      p'.state.letterValue .S = S ∧
      m'.peripherals.spindleSpeed = (if spindle = .M5 then Num.fin 0 else num S) ∧
      m'.peripherals.spindleDirection = (if spindle = .M4 then .counterClockwise else .clockwise) ∧
      m'.peripherals.coolantFlood = decide (flood = .M7) ∧
      m'.peripherals.coolantMist = decide (mist = .M8) := by
  have hnc := noCollision_of hr h he
  obtain ⟨hv1, hv2⟩ := parse_noViolation h hnc
  replace hv1 := hr.groups hv1
  replace hv2 := hr.letters hv2
  by_cases hd : IsDwell p.block.words
  · obtain ⟨q, x, hk, hq, -, -, hs, -, hmo⟩ := dwell_state hr h hnc hd
    have hset := (dwell_settings hr h hnc hd).1
    have hm' : p'.state.modal = q.state.modal := by rw [hs]; rfl
    have hS : p'.state.letterValue .S = q.state.letterValue .S := by
      rw [hs]; exact setLetter_other (p := q) (k := .S) (l := .P) (x := x) (by decide)
    refine ⟨_, _, _, _, hset.spindle, hset.flood, hset.mist, ?_, rfl, rfl, rfl, rfl, peripherals_of hmo.peripherals ?_ ?_⟩
    · rw [hS]; exact speedBy_of hv2 hq.speed
    · rw [hm']; exact ⟨rfl, rfl, rfl⟩
    · rw [hs]; rfl
  · obtain ⟨hset, -, -⟩ := modal_settings_partial hr h hnc hd
    obtain ⟨q, hk, hq, hx⟩ := parse_ok hr h hnc hd
    have hmod := exec_modal hx
    have hS : p'.state.letterValue .S = q.state.letterValue .S := by
      rcases hx with ⟨_, _, _, s, _⟩ | ⟨k, mode, _, _, _, _, s, _⟩ | ⟨_, _, _, s, _⟩ | ⟨_, _, _, s, _⟩ | ⟨_, _, _, s, _⟩ <;> rw [s]
      · rfl
      · simp
      · rfl
    refine ⟨_, _, _, _, hset.spindle, hset.flood, hset.mist, ?_, rfl, rfl, rfl, rfl, ?_⟩
    · rw [hS]; exact speedBy_of hv2 hq.speed
    · rcases hx with ⟨_, _, _, s, mo, _⟩ | ⟨k, mode, _, _, _, _, s, mo, _⟩ | ⟨_, _, _, _, _, r, _⟩ | ⟨_, _, _, s, mo, _⟩ |
        ⟨_, _, _, s, mo, _⟩
      · exact peripherals_of mo.peripherals (by rw [hmod]; exact ⟨rfl, rfl, rfl⟩) (by rw [hS]; rfl)
      · exact peripherals_of mo.peripherals (by rw [hmod]; exact ⟨rfl, rfl, rfl⟩) (by rw [hS]; rfl)
      · exact absurd r he
      · exact peripherals_of mo.peripherals (by rw [hmod]; exact ⟨rfl, rfl, rfl⟩) (by rw [hS])
      · rw [mo] at hm; exact absurd rfl hm

/-- M4 S500 M8 with a traverse. -/
example {p p' : Parser} {m m' : SimplifiedMotion}
    (hp : Block.ofString (codes "M4 S500 M8 G0 X1") = .ok p.block) (hs : p.state = .initial)
    (h : p.parseBlock m = .ok (p', m')) (he : p'.result ≠ .error) (hm : m'.type ≠ .none) :
    m'.peripherals.spindleDirection = .counterClockwise ∧ m'.peripherals.spindleSpeed = num 500 ∧
    m'.peripherals.coolantFlood = false ∧ m'.peripherals.coolantMist = true := by
  have hw : Block.ofString (codes "M4 S500 M8 G0 X1") =
    .ok (ofWords [⟨77, 4, 40⟩, ⟨83, 500, 0⟩, ⟨77, 8, 80⟩, ⟨71, 0, 0⟩, ⟨88, 1, 0⟩]) := line (by decide +kernel)
  rw [hp] at hw
  have e : p.block.words = [⟨77, 4, 40⟩, ⟨83, 500, 0⟩, ⟨77, 8, 80⟩, ⟨71, 0, 0⟩, ⟨88, 1, 0⟩] := by
    rw [Except.ok.inj hw, ofWords_words]
  obtain ⟨a, b, c, d, h1, h2, h3, h4, -, -, -, -, h5, h6, h7, h8⟩ := peripherals_partial (Read.rest ⟨_, hp⟩) h he hm
  rw [e, hs] at h1 h2 h3 h4
  have e1 := h1.named ('M', 40, .M4) (by decide) (by decide +kernel)
  have e2 := h2.kept (by decide +kernel)
  have e3 := h3.named ('M', 80, .M8) (by decide) (by decide +kernel)
  have e4 := h4.named 500 (by norm_num) (by decide +kernel)
  subst e1 e3 e4
  rw [h5, h6, h7, h8, e2]
  exact ⟨rfl, rfl, rfl, rfl⟩

/-- A block with G0. -/
theorem traverse_of {p p' : Parser} {m m' : SimplifiedMotion} (hr : Rest p) (h : p.parseBlock m = .ok (p', m'))
    (he : NoCollision p'.error) (hd : ¬ IsDwell p.block.words) (c0 : HasCode p.block.words 'G' 0)
    (hn : ∀ k ∈ [10, 20, 30, 530], ¬ HasCode p.block.words 'G' k) : m'.type = .traverse ∧ p'.result = .okContextUpdateAndMotion := by
  obtain ⟨q, hk, hq, hx⟩ := parse_ok hr h he hd
  have n : ∀ k ∈ [10, 20, 30, 530], ¬ HasCode q.block.words 'G' k := by
    intro k hk' hc
    refine hn k hk' ((keeps_codes hk ?_).1 hc)
    simp only [List.mem_cons, List.not_mem_nil, or_false] at hk'
    rcases hk' with rfl | rfl | rfl | rfl <;> decide
  rcases hx with ⟨_, c, _⟩ | ⟨k, mode, t, _, c, _, s, mo, r, _⟩ | ⟨_, c, _⟩ | ⟨_, c, _⟩ | ⟨_, c, _⟩
  · exact absurd c (n _ (by simp))
  · simp only [List.mem_cons, List.not_mem_nil, or_false, Prod.mk.injEq] at t
    rcases t with ⟨rfl, rfl⟩ | ⟨rfl, rfl⟩ | ⟨rfl, rfl⟩ | ⟨rfl, rfl⟩
    · exact ⟨mo.type, r⟩
    all_goals exact absurd c (n _ (by simp))
  · exact absurd c (n _ (by simp))
  all_goals exact absurd ((keeps_codes hk (by decide)).2 c0) (c 0 (by simp))

/-- Counterexample to **C54** with the standard meaning of M7 (mist coolant): "M7 G0 X1" switches the flood coolant on and
leaves the mist coolant off. -/
theorem coolant_violated : ∃ (p p' : Parser) (m m' : SimplifiedMotion), p.state = .initial ∧
    Block.ofString (codes "M7 G0 X1") = .ok p.block ∧ p.parseBlock m = .ok (p', m') ∧
    p'.result = .okContextUpdateAndMotion ∧ m'.type = .traverse ∧ m'.peripherals.coolantFlood = true ∧
    m'.peripherals.coolantMist = false := by
  obtain ⟨h1, h2, h3, p', m', h4, h5⟩ := runs .initial (t := "M7 G0 X1") (ws := [⟨77, 7, 70⟩, ⟨71, 0, 0⟩, ⟨88, 1, 0⟩])
      (by decide +kernel) (by decide +kernel) (by decide +kernel) (by decide +kernel) (.fresh 3)
  have key := traverse_of h2.rest h4 h5 (by rw [h3]; decide +kernel) (by rw [h3]; decide +kernel) (by rw [h3]; decide +kernel)
  obtain ⟨a, b, c, d, -, g2, g3, -, -, -, -, -, -, -, g7, g8⟩ := peripherals_partial h2.rest h4 (by rw [key.2]; decide) (by rw [key.1]; decide)
  rw [h3] at g2 g3
  refine ⟨_, p', _, m', rfl, h1, h4, key.2, key.1, ?_, ?_⟩
  · rw [g7, g2.named ('M', 70, .M7) (by decide) (by decide +kernel)]; rfl
  · rw [g8, g3.kept (by decide +kernel)]; rfl

/-! ## C55 -/

/-- An absolute coordinate of the state in mm: what an absolute move without words for the axis goes to. -/
def Settled (s : State) : Prop := s.modal.distance = .G90 ∧ ∀ i, i < 3 →
  s.currentPosition i = s.wcsOrigin s.modal.coordinateSet i +
    (if s.modal.unit = .G20 then s.letterValue ([Letter.X, .Y, .Z].getD i .X) * (254 / 10) else
      s.letterValue ([Letter.X, .Y, .Z].getD i .X))

theorem axisLetter_getD {i : Nat} (hi : i < 3) : axisLetter i = [Letter.X, .Y, .Z].getD i .X := by
  interval_cases i <;> rfl

/-- **C55**, partial: a block with G4 and P ≥ 0 (without collision) yields a pause of exactly P seconds and leaves the motion mode
unchanged; if it has no axis words and the state is `Settled` (absolute mode and the last coordinates are those of the
position, as after a reset and absolute moves in one unit) no axis moves and the position is unchanged. A block that is no such
dwell yields no pause. Missing: dwells with axis words or in incremental mode, where the position does change (`dwell_violated`). -/
theorem dwell_partial {p p' : Parser} {m m' : SimplifiedMotion} (hr : Rest p) (h : p.parseBlock m = .ok (p', m'))
    (he : NoCollision p'.error) :
    (IsDwell p.block.words →
      m'.type = .pauseAndResume ∧ (∃ x, HasVal p.block.words 'P' x ∧ m'.duration = num x) ∧
      (∀ x, HasVal p.block.words 'P' x → m'.duration = num x) ∧ p'.result = .okContextUpdateAndMotion ∧
      p'.state.modal.motion = p.state.modal.motion ∧
      ((∀ l ∈ ['X', 'Y', 'Z'], ¬ HasLetter p.block.words l) → Settled p.state →
        p'.state.currentPosition = p.state.currentPosition ∧ ∀ i, i < 3 → m'.trajectory.delta i = Num.fin 0)) ∧
    (¬ IsDwell p.block.words → m'.type ≠ .pauseAndResume) := by
  constructor
  · intro hd
    obtain ⟨q, x, hk, hq, hx, hv, hs, hres, hmo⟩ := dwell_state hr h he hd
    have hdur : m'.duration = num x := by
      rw [hmo.speed.2]
      unfold calcSpeed
      rw [hmo.type]
      simp [setLetter]
    refine ⟨hmo.type, ⟨x, hv, hdur⟩, fun y hy => ?_, hres, (dwell_settings hr h he hd).2.1, fun hn hset => ?_⟩
    · rw [hdur, val_unique (l := .P) (hr.letters (parse_noViolation h he).2) (by simp) hv hy]
    · have key : ∀ i, i < 3 → (q.setLetter .P x).nextOf i = p.state.currentPosition i := by
        intro i hi
        have hl : q.state.letterValue (axisLetter i) = p.state.letterValue (axisLetter i) := by
          have := (hq.letters (axisLetter i) (by interval_cases i <;> decide)).2
          refine this fun hc => ?_
          interval_cases i
          · exact hn 'X' (by simp) hc
          · exact hn 'Y' (by simp) hc
          · exact hn 'Z' (by simp) hc
        have hP : (q.setLetter .P x).state.letterValue (axisLetter i) = q.state.letterValue (axisLetter i) := by
          refine setLetter_other ?_
          interval_cases i <;> decide
        have hmod : (q.setLetter .P x).state.modal = q.state.modal := rfl
        have ho : (q.setLetter .P x).state.wcsOrigin = p.state.wcsOrigin := hk.origin
        unfold nextOf inMm
        simp only [hP, hl, hmod, ho, hq.modal, hset.1, reduceCtorEq, if_false]
        rw [hset.2 i hi, axisLetter_getD hi]
        rfl
      have hpos : (q.setLetter .P x).state.currentPosition = p.state.currentPosition := hk.position
      refine ⟨?_, fun i hi => ?_⟩
      · rw [hs]
        funext i
        show (if i < 3 then _ else _) = _
        split_ifs with hi
        · exact key i hi
        · rw [hpos]
      · rw [hmo.delta i hi]
        show num ((q.setLetter .P x).nextOf i - (q.setLetter .P x).state.currentPosition i) = _
        rw [key i hi, hpos, sub_self]
        simp [num]
  · intro hd
    obtain ⟨q, hk, hq, hx⟩ := parse_ok hr h he hd
    rcases hx with ⟨t, _, ht, s, mo, _⟩ | ⟨k, mode, _, _, _, _, s, mo, _⟩ | ⟨_, _, _, _, mo, _⟩ | ⟨_, _, _, s, mo, _⟩ |
      ⟨_, _, _, s, mo, _⟩
    · rw [mo.type]
      rcases ht with ⟨-, rfl⟩ | ⟨-, rfl⟩ <;> simp
    · rw [mo.type]; cases mode <;> simp [typeOf]
    · rw [mo]; simp
    · rw [mo.type]; cases q.state.modal.motion <;> simp [typeOf]
    · rw [mo]; simp

/-- A dwell from reset. -/
example {p p' : Parser} {m m' : SimplifiedMotion} (hp : Block.ofString (codes "G4 P1.5") = .ok p.block) (hs : p.state = .initial)
    (h : p.parseBlock m = .ok (p', m')) (he : NoCollision p'.error) :
    m'.type = .pauseAndResume ∧ m'.duration = num (3 / 2) ∧ p'.state.currentPosition = p.state.currentPosition := by
  have hw : Block.ofString (codes "G4 P1.5") = .ok (ofWords [⟨71, 4, 40⟩, ⟨80, 3 / 2, 0⟩]) := line (by decide +kernel)
  rw [hp] at hw
  have e : p.block.words = [⟨71, 4, 40⟩, ⟨80, 3 / 2, 0⟩] := by rw [Except.ok.inj hw, ofWords_words]
  obtain ⟨h1, -, h2, -, -, h3⟩ := (dwell_partial (Read.rest ⟨_, hp⟩) h he).1 (by rw [e]; decide +kernel)
  refine ⟨h1, h2 _ (by rw [e]; decide +kernel), (h3 (by rw [e]; decide +kernel) ?_).1⟩
  rw [hs]
  exact ⟨rfl, fun i hi => by simp [State.initial]⟩

/-- Counterexample to **C55**: "G4 P1 X5" from reset moves the interpreter's position to X5, without any movement of the machine
(a pause). -/
theorem dwell_violated : ∃ (p p' : Parser) (m m' : SimplifiedMotion), p.state = .initial ∧
    Block.ofString (codes "G4 P1 X5") = .ok p.block ∧ p.parseBlock m = .ok (p', m') ∧
    p'.result = .okContextUpdateAndMotion ∧ m'.type = .pauseAndResume ∧ p.state.currentPosition 0 = 0 ∧
    p'.state.currentPosition 0 = 5 := by
  obtain ⟨h1, h2, h3, p', m', h4, h5⟩ := runs .initial (t := "G4 P1 X5") (ws := [⟨71, 4, 40⟩, ⟨80, 1, 0⟩, ⟨88, 5, 0⟩])
      (by decide +kernel) (by decide +kernel) (by decide +kernel) (by decide +kernel) (.fresh 3)
  obtain ⟨q, x, hk, hq, hx, hv, hs, hres, hmo⟩ := dwell_state h2.rest h4 h5 (by rw [h3]; decide +kernel)
  refine ⟨_, p', _, m', rfl, h1, h4, hres, hmo.type, rfl, ?_⟩
  rw [hs]
  show (if (0 : Nat) < 3 then (q.setLetter .P x).nextOf 0 else (q.setLetter .P x).state.currentPosition 0) = _
  rw [if_pos (by norm_num)]
  have hX : q.state.letterValue .X = 5 := by
    have := (hq.letters .X (by decide)).1 (by rw [h3]; decide +kernel)
    exact val_unique (l := .X) (ws := [⟨71, 4, 40⟩, ⟨80, 1, 0⟩, ⟨88, 5, 0⟩]) (by decide +kernel) (by simp) (by rw [← h3]; exact this)
      (by decide +kernel)
  unfold nextOf inMm
  have hP : (q.setLetter .P x).state.letterValue (axisLetter 0) = 5 := (setLetter_other (by decide)).trans hX
  have hmod : (q.setLetter .P x).state.modal = q.state.modal := rfl
  have ho : (q.setLetter .P x).state.wcsOrigin = State.initial.wcsOrigin := hk.origin
  simp only [hP, hmod, ho, hq.modal]
  show (0 : ℚ) + 5 = 5
  norm_num

/-! ## C56 -/

/-- **C56**, partial: an error result comes with an error; a "motion available" result comes with a motion; and a motion comes
with such a result, unless the block has G53 or its error is InvalidFeedrate. Missing: these two cases, where it is false
(`outcome_violated`). -/
theorem outcome_partial {p p' : Parser} {m m' : SimplifiedMotion} (hr : Rest p) (h : p.parseBlock m = .ok (p', m')) :
    (p'.result = .error → p'.error ≠ .none) ∧ (Reported p'.result → m'.type ≠ .none) ∧
    (¬ HasCode p.block.words 'G' 530 → p'.error ≠ .invalidFeedrate → m'.type ≠ .none → Reported p'.result) ∧
    (p'.result = .error → p'.error ≠ .invalidFeedrate → m'.type = .none ∧ p'.state = p.state) := by
  by_cases hc : NoCollision p'.error
  · by_cases hd : IsDwell p.block.words
    · obtain ⟨q, x, -, -, -, -, -, hres, hmo⟩ := dwell_state hr h hc hd
      have ht := hmo.type
      rw [hres, ht]
      simp [Reported]
    · obtain ⟨q, hk, hq, hx⟩ := parse_ok hr h hc hd
      rcases hx with ⟨t, c, ht, s, mo, r, e, _⟩ | ⟨k, mode, _, _, _, _, s, mo, r, e, _⟩ | ⟨_, _, _, _, mo, r, e, _⟩ |
        ⟨_, _, _, s, mo, r, e, _⟩ | ⟨_, _, _, s, mo, r, e, _⟩
      · have c' := (keeps_codes hk (by decide)).1 c
        rw [r]
        simp [Reported, c']
      · rw [r, mo.type]
        cases mode <;> simp [Reported, typeOf]
      · rw [r, e]; simp [Reported]
      · rw [r, mo.type]
        cases q.state.modal.motion <;> simp [Reported, typeOf]
      · rw [r, mo]; simp [Reported]
  · rcases parse_split p m with ⟨-, e⟩ | ⟨-, -, e⟩ | ⟨h1, h2, -⟩
    · rw [h] at e
      obtain ⟨rfl, rfl⟩ := Prod.mk.inj (Except.ok.inj e)
      simp [fail, Reported]
    · rw [h] at e
      obtain ⟨rfl, rfl⟩ := Prod.mk.inj (Except.ok.inj e)
      simp [fail, Reported]
    · exfalso
      apply hc
      by_cases hd : IsDwell p.block.words
      · obtain ⟨q, x, i, j, hk, hne, hq, hx, hv, -, -, e'⟩ := parse_dwell m hr rfl h1 h2 hd
        rw [h] at e'
        obtain ⟨r, e'', -, -, he, -, -⟩ := moveThen_ok e'.symm
        rw [e'']
        show NoCollision r.error
        rw [he]; exact hne
      · obtain ⟨q, -, -, e'⟩ := parse_ready hr rfl h1 h2 hd m
        rw [h] at e'
        rcases execute_cases e'.symm with ⟨_, _, _, _, _, _, r, _⟩ | ⟨k, mode, _, _, _, _, _, _, _, r, _⟩ |
          ⟨_, _, _, _, _, _, r, _⟩ | ⟨_, _, _, _, _, _, r, _⟩ | ⟨_, _, _, _, _, _, r, _⟩ <;> rw [r] <;> exact ⟨by simp, by simp⟩

/-- A colliding block from reset is an error without motion. -/
example {p p' : Parser} {m m' : SimplifiedMotion} (hp : Block.ofString (codes "G0 G1 X1") = .ok p.block)
    (h : p.parseBlock m = .ok (p', m')) (he : p'.result = .error) (hf : p'.error ≠ .invalidFeedrate) : m'.type = .none :=
  ((outcome_partial (Read.rest ⟨_, hp⟩) h).2.2.2 he hf).1

/-- Counterexamples to **C56**: "G1 X1" from reset is an error (no feed rate) with a motion; "G53 G0 X1" yields a motion that is
not reported. -/
theorem outcome_violated :
    (∃ (p p' : Parser) (m m' : SimplifiedMotion), p.state = .initial ∧ Block.ofString (codes "G1 X1") = .ok p.block ∧
      p.parseBlock m = .ok (p', m') ∧ p'.result = .error ∧ m'.type = .feedLinear) ∧
    (∃ (p p' : Parser) (m m' : SimplifiedMotion), p.state = .initial ∧ Block.ofString (codes "G53 G0 X1") = .ok p.block ∧
      p.parseBlock m = .ok (p', m') ∧ m'.type = .traverse ∧ ¬ Reported p'.result) := by
  constructor
  · obtain ⟨h1, h2, h3, p', m', h4, h5⟩ := runs .initial (t := "G1 X1") (ws := [⟨71, 1, 10⟩, ⟨88, 1, 0⟩])
      (by decide +kernel) (by decide +kernel) (by decide +kernel) (by decide +kernel) (.fresh 3)
    obtain ⟨q, hk, hq, hx⟩ := parse_ok h2.rest h4 h5 (by rw [h3]; decide +kernel)
    have key : ∀ k ∈ [0, 10, 20, 30, 530], HasCode q.block.words 'G' k ↔ k = 10 := by
      intro k hk'
      have h6 := keeps_codes (k := k) hk (by
        simp only [List.mem_cons, List.not_mem_nil, or_false] at hk'
        rcases hk' with rfl | rfl | rfl | rfl | rfl <;> decide)
      rw [h6, h3]
      simp only [List.mem_cons, List.not_mem_nil, or_false] at hk'
      rcases hk' with rfl | rfl | rfl | rfl | rfl <;> decide +kernel
    have hF : q.state.letterValue .F = 0 := by
      rcases hq.feed with ⟨x, -, hv, -⟩ | ⟨-, -, e⟩
      · rw [h3] at hv
        obtain ⟨w, hw, hl, -⟩ := hv
        exact absurd (⟨w, hw, hl⟩ : HasLetter _ 'F') (by decide +kernel)
      · refine (e ?_).trans rfl
        rw [h3]; decide +kernel
    rcases hx with ⟨_, c, _⟩ | ⟨k, mode, t, _, c, f, s, mo, r, _⟩ | ⟨_, _, _, _, mo, r, _⟩ | ⟨_, c, _⟩ | ⟨_, c, _⟩
    · exact absurd ((key _ (by simp)).1 c) (by decide)
    · simp only [List.mem_cons, List.not_mem_nil, or_false, Prod.mk.injEq] at t
      rcases t with ⟨rfl, rfl⟩ | ⟨rfl, rfl⟩ | ⟨rfl, rfl⟩ | ⟨rfl, rfl⟩
      · exact absurd ((key _ (by simp)).1 c) (by decide)
      · have := f rfl
        rw [hF] at this
        exact absurd this (lt_irrefl _)
      · exact absurd ((key _ (by simp)).1 c) (by decide)
      · exact absurd ((key _ (by simp)).1 c) (by decide)
    · exact ⟨_, p', _, m', rfl, h1, h4, r, by rw [mo]⟩
    · exact absurd ((key 10 (by simp)).2 rfl) (c 10 (by simp))
    · exact absurd ((key 10 (by simp)).2 rfl) (c 10 (by simp))
  · obtain ⟨h1, h2, h3, p', m', h4, h5⟩ := runs .initial (t := "G53 G0 X1") (ws := [⟨71, 53, 530⟩, ⟨71, 0, 0⟩, ⟨88, 1, 0⟩])
      (by decide +kernel) (by decide +kernel) (by decide +kernel) (by decide +kernel) (.fresh 3)
    obtain ⟨q, hk, hq, hx⟩ := parse_ok h2.rest h4 h5 (by rw [h3]; decide +kernel)
    have hc : HasCode q.block.words 'G' 530 := (keeps_codes hk (by decide)).2 (by rw [h3]; decide +kernel)
    have hc0 : HasCode q.block.words 'G' 0 := (keeps_codes hk (by decide)).2 (by rw [h3]; decide +kernel)
    rcases hx with ⟨t, c, ht, s, mo, r, _⟩ | ⟨k, mode, _, n, _⟩ | ⟨n, _⟩ | ⟨n, _⟩ | ⟨n, _⟩
    · refine ⟨_, p', _, m', rfl, h1, h4, ?_, by rw [r]; simp [Reported]⟩
      rcases ht with ⟨-, rfl⟩ | ⟨n, -⟩
      · exact mo.type
      · exact absurd hc0 n
    all_goals exact absurd hc n

end Moovr.Props
