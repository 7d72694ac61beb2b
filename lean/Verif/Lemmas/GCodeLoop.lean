import Verif.Lemmas.GCodeRun
/-!
# Words left in a block after a call of `parseBlock`
-/
namespace Moovr.GCode
open Parser

/-- No word of a kind is left. -/
def Gone (P : Word → Prop) (p : Parser) : Prop := ∀ w ∈ p.block.words, ¬ P w

/-- At most one word of a kind. -/
def Single (P : Word → Prop) [DecidablePred P] (ws : List Word) : Prop := ws.countP (fun w => decide (P w)) ≤ 1

/-- The words of `q` are left of those of `p`. -/
def Left (p q : Parser) : Prop := ∃ r : List Word, p.block.words.Perm (r ++ q.block.words)

theorem Left.refl (p : Parser) : Left p p := ⟨[], by simp⟩

theorem Left.trans {p q r : Parser} (h : Left p q) (h' : Left q r) : Left p r := by
  obtain ⟨a, ha⟩ := h
  obtain ⟨b, hb⟩ := h'
  exact ⟨a ++ b, by rw [List.append_assoc]; exact ha.trans (hb.append_left a)⟩

theorem Keeps.left {K : Word → Prop} {p q : Parser} (h : Keeps K p q) : Left p q := by
  obtain ⟨r, -, hr⟩ := h.words
  exact ⟨r, hr⟩

theorem Left.mem {p q : Parser} (h : Left p q) {w : Word} (hw : w ∈ q.block.words) : w ∈ p.block.words := by
  obtain ⟨r, hr⟩ := h
  exact hr.mem_iff.2 (List.mem_append_right r hw)

theorem Gone.left {P : Word → Prop} {p q : Parser} (h : Gone P p) (hl : Left p q) : Gone P q := fun w hw => h w (hl.mem hw)

theorem Single.left {P : Word → Prop} [DecidablePred P] {p q : Parser} (h : Single P p.block.words) (hl : Left p q) :
    Single P q.block.words := by
  obtain ⟨r, hr⟩ := hl
  unfold Single at *
  rw [hr.countP_eq, List.countP_append] at h
  omega

theorem gone_of_perm {P : Word → Prop} [DecidablePred P] {ws r : List Word} {w : Word} (hw : P w) (hp : ws.Perm (w :: r))
    (h : Single P ws) : ∀ x ∈ r, ¬ P x := by
  intro x hx hP
  unfold Single at h
  rw [hp.countP_eq, List.countP_cons_of_pos (by simpa using hw)] at h
  have : 0 < r.countP fun w => decide (P w) := List.countP_pos_iff.2 ⟨x, hx, by simpa using hP⟩
  omega

theorem getWord_gone (p : Parser) (c : Char) (l : Letter) (h : Single (WithLetter c) p.block.words) :
    Gone (WithLetter c) (p.getWord c l) := by
  unfold getWord
  rcases hs : p.block.search c with _ | i
  · exact fun w hw hc => search_none.1 hs ⟨w, hw, hc⟩
  · obtain ⟨w, h1, -, h3⟩ := search_some hs
    exact gone_of_perm h1 h3 h

theorem getWords_left (ls : List Letter) : ∀ p : Parser, Left p (ls.foldl (fun p l => p.getWord (charOf l) l) p) := by
  induction ls with
  | nil => exact Left.refl
  | cons l ls ih => intro p; exact (getWord_spec p (charOf l) l).1.left.trans (ih _)

theorem getWords_gone (ls : List Letter) : ∀ p : Parser, (∀ l ∈ ls, Single (WithLetter (charOf l)) p.block.words) →
    ∀ l ∈ ls, Gone (WithLetter (charOf l)) (ls.foldl (fun p l => p.getWord (charOf l) l) p) := by
  induction ls with
  | nil => intro p _ l hl; simp at hl
  | cons a ls ih =>
    intro p h l hl
    rw [List.foldl_cons]
    rcases List.mem_cons.1 hl with rfl | hl
    · exact (getWord_gone p _ l (h l (by simp))).left (getWords_left ls _)
    · exact ih _ (fun l' hl' => (h l' (List.mem_cons_of_mem _ hl')).left (getWord_spec p (charOf a) a).1.left) l hl

/-- A word N only at the beginning. -/
def NFirst (ws : List Word) : Prop := ∀ w ∈ ws.tail, ¬ WithLetter 'N' w

theorem remove_tail (b : Block) (i : Nat) : ∀ w ∈ (b.removeWord i).words.tail, w ∈ b.words.tail := by
  intro w hw
  unfold Block.removeWord at hw
  by_cases hi : i < b.words.length
  · rw [if_pos hi] at hw
    simp only at hw
    by_cases h1 : 1 < b.words.length
    · rw [if_pos h1] at hw
      obtain ⟨k, hk, e⟩ := List.getElem_of_mem hw
      have hk' : k + 1 < b.words.length - 1 := by simp at hk; omega
      simp only [List.getElem_tail, List.getElem_dropLast, List.getElem_set] at e
      rw [List.mem_iff_getElem]
      by_cases hik : i = k + 1
      · rw [if_pos hik] at e
        refine ⟨b.words.length - 2, by simp; omega, ?_⟩
        rw [← e, List.getElem_tail, List.getLastD_eq_getLast?, List.getLast?_eq_getElem?,
          List.getElem?_eq_getElem (by omega)]
        simp only [Option.getD_some]
        congr 1
        omega
      · rw [if_neg hik] at e
        exact ⟨k, by simp; omega, by rw [← e, List.getElem_tail]⟩
    · rw [if_neg h1] at hw
      have : b.words.dropLast.tail = [] := by
        rw [← List.length_eq_zero_iff]; simp; omega
      rw [this] at hw
      simp at hw
  · rw [if_neg hi] at hw; exact hw

theorem getWords_first (ls : List Letter) : ∀ p : Parser, NFirst p.block.words →
    NFirst (ls.foldl (fun p l => p.getWord (charOf l) l) p).block.words := by
  induction ls with
  | nil => exact fun _ h => h
  | cons l ls ih =>
    intro p h
    refine ih _ ?_
    show NFirst (p.getWord (charOf l) l).block.words
    unfold getWord
    cases p.block.search (charOf l) with
    | none => exact h
    | some i => exact fun w hw => h w (remove_tail _ _ w hw)

theorem perm_tail {ws r : List Word} (hi : 0 < ws.length) (hp : ws.Perm (ws[0] :: r)) : ws.tail.Perm r := by
  cases ws with
  | nil => simp at hi
  | cons a t => simpa using hp

theorem line_gone (p : Parser) (h : NFirst p.block.words) (hn : ∀ w ∈ p.block.words, WithLetter 'N' w → 0 ≤ w.number) :
    Gone (WithLetter 'N') p.getLineNumberWord := by
  unfold getLineNumberWord
  rcases hs : p.block.search 'N' with _ | i
  · exact fun w hw hc => search_none.1 hs ⟨w, hw, hc⟩
  · obtain ⟨hi, hq, -⟩ := List.findIdx?_eq_some_iff_getElem.1 hs
    have hN : WithLetter 'N' p.block.words[i] := by simpa [WithLetter] using hq
    cases i with
    | zero =>
      have e : p.block.number 0 = p.block.words[0].number := by
        unfold Block.number; simp [List.getD, hi]
      simp only
      rw [if_pos (by rw [e]; exact hn _ (by simp) hN)]
      have hp : p.block.words.Perm (p.block.words[0] :: (p.block.removeWord 0).words) := remove_perm' _ hi
      intro w hw hc
      change w ∈ (p.block.removeWord 0).words at hw
      have hp' := perm_tail hi hp
      exact h w (hp'.mem_iff.2 hw) hc
    | succ i =>
      refine absurd hN (h _ ?_)
      rw [List.mem_iff_getElem]
      exact ⟨i, by simp; omega, by simp⟩

theorem feed_gone (p : Parser) (h : Single (WithLetter 'F') p.block.words)
    (hn : ∀ w ∈ p.block.words, WithLetter 'F' w → 0 < w.number) : Gone (WithLetter 'F') p.setFeedrateValue := by
  unfold setFeedrateValue
  by_cases hw : p.block.hasWords = true
  · rw [if_pos hw]
    rcases hs : p.block.search 'F' with _ | i
    · have := search_none.1 hs
      simp only
      split_ifs <;> exact fun w hw hc => this ⟨w, hw, hc⟩
    · obtain ⟨w, h1, h2, h3⟩ := search_some hs
      simp only
      rw [if_pos (by rw [h2]; exact hn w (h3.mem_iff.2 (by simp)) h1)]
      exact gone_of_perm h1 h3 h
  · rw [if_neg hw]
    exact fun w hw' hc => hw (hasWords_of_hasLetter ⟨w, hw', hc⟩)

theorem speed_gone (p : Parser) (h : Single (WithLetter 'S') p.block.words)
    (hn : ∀ w ∈ p.block.words, WithLetter 'S' w → 0 ≤ w.number) : Gone (WithLetter 'S') p.setSpindleSpeed := by
  unfold setSpindleSpeed
  by_cases hw : p.block.hasWords = true
  · rw [if_pos hw]
    rcases hs : p.block.search 'S' with _ | i
    · exact fun w hw hc => search_none.1 hs ⟨w, hw, hc⟩
    · obtain ⟨w, h1, h2, h3⟩ := search_some hs
      simp only
      rw [if_pos (by rw [h2]; exact hn w (h3.mem_iff.2 (by simp)) h1)]
      exact gone_of_perm h1 h3 h
  · rw [if_neg hw]
    exact fun w hw' hc => hw (hasWords_of_hasLetter ⟨w, hw', hc⟩)

/-- A word with a letter and one of some codes. -/
def Among (l : Char) (ks : List Nat) (w : Word) : Prop := w.letter = l.toNat ∧ w.intNumber ∈ ks

instance (l : Char) (ks : List Nat) : DecidablePred (Among l ks) := fun w => by unfold Among; infer_instance

theorem chain_gone (p : Parser) (l : Char) (t : List (Nat × (Modal → Modal)))
    (h : Single (Among l (t.map Prod.fst)) p.block.words) : Gone (Among l (t.map Prod.fst)) (chain p l t) := by
  suffices H : ∀ ks, (∀ k ∈ ks, ¬ HasCode p.block.words l k) → ∀ t : List (Nat × (Modal → Modal)),
      Single (Among l (ks ++ t.map Prod.fst)) p.block.words → Gone (Among l (ks ++ t.map Prod.fst)) (chain p l t) by
    simpa using H [] (by simp) t (by simpa using h)
  intro ks hks t
  induction t generalizing ks with
  | nil =>
    rintro - w hw ⟨h1, h2⟩
    simp only [List.map_nil, List.append_nil] at h2
    exact hks _ h2 ⟨w, hw, h1, rfl⟩
  | cons a t ih =>
    obtain ⟨k, f⟩ := a
    intro hu
    unfold chain
    rcases hs : p.block.search2 l k with _ | i
    · have hn := search2_none.1 hs
      rw [apply2_none hn]
      have := ih (ks ++ [k]) (by
        intro k' hk'
        rcases List.mem_append.1 hk' with h | h
        · exact hks k' h
        · rw [List.mem_singleton.1 h]; exact hn) (by simpa using hu)
      simpa using this
    · obtain ⟨-, w, h1, -, h3⟩ := search2_some hs
      have e : p.apply2 l k f = some ((p.setModal (f p.state.modal)).removeWord i) := by
        unfold apply2; rw [hs]; rfl
      rw [e]
      exact gone_of_perm (P := Among l (ks ++ List.map Prod.fst ((k, f) :: t))) ⟨h1.1, by rw [h1.2]; simp⟩ h3 hu

theorem single_group {ws : List Word} (h : (ofWords ws).hasModalGroupViolation = false) (g : ModalGroup) {P : Word → Prop}
    [DecidablePred P] (hP : ∀ w, P w → g ∈ Block.groupsOf w) : Single P ws := by
  unfold Block.hasModalGroupViolation ofWords at h
  rw [List.any_eq_false] at h
  have := h g (by cases g <;> simp [ModalGroup.all])
  rw [foldl_group] at this
  simp only [Block.empty, Nat.zero_add, decide_eq_true_eq, not_lt] at this
  refine le_trans ?_ this
  clear this h
  induction ws with
  | nil => simp
  | cons w ws ih =>
    rw [List.countP_cons, List.map_cons, List.sum_cons]
    split_ifs with hw
    · have : 0 < (Block.groupsOf w).count g := List.count_pos_iff.2 (hP w (by simpa using hw))
      omega
    · omega

theorem single_letter {ws : List Word} (h : (ofWords ws).hasLetterWordViolation = false) {l : Letter} (hl : l ≠ .T) :
    Single (WithLetter (charOf l)) ws := by
  unfold Block.hasLetterWordViolation ofWords at h
  rw [List.any_eq_false] at h
  have := h l (by cases l <;> simp [Letter.all])
  rw [foldl_letter] at this
  simp only [Block.empty, Nat.zero_add, decide_eq_true_eq, not_lt] at this
  unfold Single
  simpa only [letterOf_iff hl] using this

theorem single_of_not_twice {P : Word → Prop} [DecidablePred P] : ∀ {ws : List Word}, ¬ Twice P ws → Single P ws := by
  intro ws
  unfold Single
  induction ws with
  | nil => simp
  | cons a ws ih =>
    intro h
    rw [twice_cons, not_or] at h
    have h2 := ih h.2
    rw [List.countP_cons]
    split_ifs with ha
    · have : ws.countP (fun w => decide (P w)) = 0 := by
        rw [List.countP_eq_zero]
        intro x hx hc
        exact h.1 ⟨by simpa using ha, x, hx, by simpa using hc⟩
      omega
    · omega

/-- Words the settings can take: F positive, S and N not negative, N only at the beginning, at most one override and one
coordinate system. -/
structure Takes (ws : List Word) : Prop where
  line : NFirst ws
  number : ∀ w ∈ ws, WithLetter 'N' w → 0 ≤ w.number
  feed : ∀ w ∈ ws, WithLetter 'F' w → 0 < w.number
  speed : ∀ w ∈ ws, WithLetter 'S' w → 0 ≤ w.number
  override : Single (Among 'M' [480, 490]) ws
  coords : Single (Among 'G' [540, 550, 560, 570, 580, 590, 591, 592, 593]) ws

theorem mem_groups {w : Word} {l : Char} {ks : List Nat} {g : ModalGroup} (h : Among l ks w)
    (hk : ∀ k ∈ ks, g ∈ Block.groupsOf ⟨l.toNat, 0, k⟩) : g ∈ Block.groupsOf w := by
  have e : Block.groupsOf w = Block.groupsOf ⟨l.toNat, 0, w.intNumber⟩ := by unfold Block.groupsOf; simp only [h.1]
  rw [e]
  exact hk _ h.2

set_option maxHeartbeats 1000000 in
theorem settings1_gone (p : Parser) (hc : Shows p.block p.block.words)
    (hg : (ofWords p.block.words).hasModalGroupViolation = false) (hl : (ofWords p.block.words).hasLetterWordViolation = false)
    (ht : Takes p.block.words) : Gone Kind1 p.settings1 := by
  have sg : ∀ (l : Char) (ks : List Nat) (g : ModalGroup), (∀ k ∈ ks, g ∈ Block.groupsOf ⟨l.toNat, 0, k⟩) →
      Single (Among l ks) p.block.words := fun l ks g h => single_group hg g fun w hw => mem_groups hw h
  unfold settings1
  have l1 : Left p p.getAxisOffsetRadiusWords := by
    rw [getAxisOffsetRadiusWords_eq p hc]; exact getWords_left _ p
  have g1 : ∀ l ∈ [Letter.X, .Y, .Z, .I, .J, .K, .R], Gone (WithLetter (charOf l)) p.getAxisOffsetRadiusWords := by
    rw [getAxisOffsetRadiusWords_eq p hc]
    refine getWords_gone _ p fun l hl' => single_letter hl ?_
    rintro rfl
    simp at hl'
  have n1 : NFirst p.getAxisOffsetRadiusWords.block.words := by
    rw [getAxisOffsetRadiusWords_eq p hc]; exact getWords_first _ p ht.line
  generalize p.getAxisOffsetRadiusWords = q1 at *
  have l2 : Left q1 q1.getLineNumberWord := (getLineNumberWord_spec q1).1.left
  have g2 : Gone (WithLetter 'N') q1.getLineNumberWord := line_gone q1 n1 fun w hw => ht.number w (l1.mem hw)
  generalize q1.getLineNumberWord = q2 at *
  have l3 : Left q2 q2.setFeedrateMode := by
    have := (setFeedrateMode_spec q2).1
    exact ⟨[], by rw [this]; simp⟩
  generalize q2.setFeedrateMode = q3 at *
  have m3 : Left p q3 := (l1.trans l2).trans l3
  have l4 : Left q3 q3.setFeedrateValue := (setFeedrateValue_spec q3).1.left
  have g4 : Gone (WithLetter 'F') q3.setFeedrateValue :=
    feed_gone q3 ((single_letter (l := .F) hl (by simp)).left m3) fun w hw => ht.feed w (m3.mem hw)
  generalize q3.setFeedrateValue = q4 at *
  have m4 := m3.trans l4
  have l5 : Left q4 q4.setSpindleSpeed := (setSpindleSpeed_spec q4).1.left
  have g5 : Gone (WithLetter 'S') q4.setSpindleSpeed :=
    speed_gone q4 ((single_letter (l := .S) hl (by simp)).left m4) fun w hw => ht.speed w (m4.mem hw)
  generalize q4.setSpindleSpeed = q5 at *
  have m5 := m4.trans l5
  have l6 : Left q5 q5.setSpindleMode := by
    rw [setSpindleMode_eq]; exact (chain_spec q5 'M' spindleTable).1.left
  have g6 : Gone (Among 'M' [30, 40, 50]) q5.setSpindleMode := by
    rw [setSpindleMode_eq]
    exact chain_gone q5 'M' spindleTable ((sg 'M' [30, 40, 50] .spindle (by decide)).left m5)
  generalize q5.setSpindleMode = q6 at *
  have m6 := m5.trans l6
  have l7 : Left q6 q6.setCoolantMode := (coolant_spec q6).1.left
  have g7 : Gone (Among 'M' [70]) q6.setCoolantMode ∧ Gone (Among 'M' [80]) q6.setCoolantMode ∧
      Gone (Among 'M' [90]) q6.setCoolantMode := by
    rw [setCoolantMode_eq]
    have s1 := (sg 'M' [70] .coolantMist (by decide)).left m6
    have s2 := (sg 'M' [80] .coolantFlood (by decide)).left m6
    have s3 := (sg 'M' [90] .coolantFlood (by decide)).left m6
    have t1 := chain_gone q6 'M' [(70, fun m => { m with coolantFlood := .M7 })] s1
    have t2 := (chain_spec q6 'M' [(70, fun m => { m with coolantFlood := .M7 })]).1.left
    generalize chain q6 'M' [(70, fun m => { m with coolantFlood := .M7 })] = r1 at *
    have u1 := chain_gone r1 'M' [(80, fun m => { m with coolantMist := .M8 })] (s2.left t2)
    have u2 := (chain_spec r1 'M' [(80, fun m => { m with coolantMist := .M8 })]).1.left
    generalize chain r1 'M' [(80, fun m => { m with coolantMist := .M8 })] = r2 at *
    have v1 := chain_gone r2 'M' [(90, fun m => { m with coolantFlood := .M9, coolantMist := .M9 })] (s3.left (t2.trans u2))
    have v2 := (chain_spec r2 'M' [(90, fun m => { m with coolantFlood := .M9, coolantMist := .M9 })]).1.left
    exact ⟨t1.left (u2.trans v2), u1.left v2, v1⟩
  generalize q6.setCoolantMode = q7 at *
  have m7 := m6.trans l7
  have l8 : Left q7 q7.setOverrideMode := by
    rw [setOverrideMode_eq]; exact (chain_spec q7 'M' overrideTable).1.left
  have g8 : Gone (Among 'M' [480, 490]) q7.setOverrideMode := by
    rw [setOverrideMode_eq]
    exact chain_gone q7 'M' overrideTable (ht.override.left m7)
  generalize q7.setOverrideMode = q8 at *
  have e7 := l8
  have e6 := l7.trans e7
  have e5 := l6.trans e6
  have e4 := l5.trans e5
  have e2 := l3.trans (l4.trans e4)
  have e1 := l2.trans e2
  rintro w hw (⟨h1, h2⟩ | ⟨l, h1, h2⟩)
  · simp only [List.mem_cons, List.not_mem_nil, or_false] at h2
    rcases h2 with h2 | h2 | h2 | h2 | h2 | h2 | h2 | h2
    · exact (g6.left e6) w hw ⟨h1, by simp [h2]⟩
    · exact (g6.left e6) w hw ⟨h1, by simp [h2]⟩
    · exact (g6.left e6) w hw ⟨h1, by simp [h2]⟩
    · exact (g7.1.left e7) w hw ⟨h1, by simp [h2]⟩
    · exact (g7.2.1.left e7) w hw ⟨h1, by simp [h2]⟩
    · exact (g7.2.2.left e7) w hw ⟨h1, by simp [h2]⟩
    · exact g8 w hw ⟨h1, by simp [h2]⟩
    · exact g8 w hw ⟨h1, by simp [h2]⟩
  · by_cases hx : l ∈ [Letter.X, .Y, .Z, .I, .J, .K, .R]
    · exact (g1 l hx).left e1 w hw h2
    · have : l = .N ∨ l = .F ∨ l = .S := by
        revert h1 hx; cases l <;> decide
      rcases this with rfl | rfl | rfl
      · exact g2.left e2 w hw h2
      · exact g4.left e4 w hw h2
      · exact g5.left e5 w hw h2

theorem settings2_gone (p : Parser) (hg : (ofWords p.block.words).hasModalGroupViolation = false)
    (ht : Single (Among 'G' [540, 550, 560, 570, 580, 590, 591, 592, 593]) p.block.words) : Gone Kind2 p.settings2 := by
  have sg : ∀ (l : Char) (ks : List Nat) (g : ModalGroup), (∀ k ∈ ks, g ∈ Block.groupsOf ⟨l.toNat, 0, k⟩) →
      Single (Among l ks) p.block.words := fun l ks g h => single_group hg g fun w hw => mem_groups hw h
  unfold settings2
  have l1 : Left p p.setArcPlane := by rw [setArcPlane_eq]; exact (chain_spec p 'G' planeTable).1.left
  have g1 : Gone (Among 'G' [170, 180, 190]) p.setArcPlane := by
    rw [setArcPlane_eq]; exact chain_gone p 'G' planeTable (sg 'G' [170, 180, 190] .plane (by decide))
  generalize p.setArcPlane = q1 at *
  have l2 : Left q1 q1.setUnitsMode := by rw [setUnitsMode_eq]; exact (chain_spec q1 'G' unitTable).1.left
  have g2 : Gone (Among 'G' [200, 210]) q1.setUnitsMode := by
    rw [setUnitsMode_eq]; exact chain_gone q1 'G' unitTable ((sg 'G' [200, 210] .unit (by decide)).left l1)
  generalize q1.setUnitsMode = q2 at *
  have l3 : Left q2 q2.setWCSMode := by rw [setWCSMode_eq]; exact (chain_spec q2 'G' wcsTable).1.left
  have g3 : Gone (Among 'G' [540, 550, 560, 570, 580, 590, 591, 592, 593]) q2.setWCSMode := by
    rw [setWCSMode_eq]; exact chain_gone q2 'G' wcsTable (ht.left (l1.trans l2))
  generalize q2.setWCSMode = q3 at *
  have l4 : Left q3 q3.setDistanceMode := by rw [setDistanceMode_eq]; exact (chain_spec q3 'G' distanceTable).1.left
  have g4 : Gone (Among 'G' [900, 910]) q3.setDistanceMode := by
    rw [setDistanceMode_eq]
    exact chain_gone q3 'G' distanceTable ((sg 'G' [900, 910] .distance (by decide)).left ((l1.trans l2).trans l3))
  generalize q3.setDistanceMode = q4 at *
  rintro w hw ⟨h1, h2⟩
  simp only [List.mem_cons, List.not_mem_nil, or_false] at h2
  have a1 := g1.left ((l2.trans l3).trans l4) w hw
  have a2 := g2.left (l3.trans l4) w hw
  have a3 := g3.left l4 w hw
  have a4 := g4 w hw
  unfold Among at a1 a2 a3 a4
  simp only [h1, true_and, List.mem_cons, List.not_mem_nil, or_false] at a1 a2 a3 a4
  omega

/-- After the settings of a block that is no dwell, no words of their kinds are left. -/
theorem parse_gone {p p' : Parser} {m m' : SimplifiedMotion} (hr : Rest p) (h : p.parseBlock m = .ok (p', m'))
    (he : NoCollision p'.error) (hd : ¬ IsDwell p.block.words) (ht : Takes p.block.words) :
    ∃ q, Left p q ∧ Gone Kind q ∧ Exec q { m with type := .none } p' m' := by
  obtain ⟨hv1, hv2⟩ := parse_noViolation h he
  rcases parse_split p m with ⟨h', -⟩ | ⟨-, h', -⟩ | ⟨-, -, e⟩
  · rw [hv1] at h'; simp at h'
  · rw [hv2] at h'; simp at h'
  · set p0 : Parser := { p with result := .emptyBlock, error := .none } with hp0
    have hc : Shows p0.block p0.block.words := hr.shows
    have k1 : Keeps Kind1 p0 p0.settings1 := settings1_keeps p0
    have k1' : Keeps Kind1 p p0.settings1 := ⟨k1.counts, k1.words, k1.position, k1.next, k1.origin⟩
    have g1 := settings1_gone p0 hc (hr.groups hv1) (hr.letters hv2) ht
    generalize p0.settings1 = q1 at *
    rcases dwell_spec q1 { m with type := .none } with ⟨x, i, j, h1, h4, h5, -⟩ | ⟨q2, e1, hb2, hs2, -⟩
    · refine absurd ⟨(k1'.hasCode fun w hw => kind1_not hw).1 h1, x, h4, ?_⟩ hd
      obtain ⟨w, a, b⟩ := h5
      exact ⟨w, k1'.sub a, b⟩
    · have e' : p.parseBlock m = execute q2.settings2.changeData { m with type := .none } := by
        rcases e with ⟨r, h1, -⟩ | ⟨q, h1, h2⟩
        · rw [e1] at h1; simp at h1
        · rw [e1] at h1; rw [h2, Sum.inr.inj h1]
      rw [h] at e'
      have l2 : Left p q2 := by
        obtain ⟨r, hr⟩ := k1'.left
        exact ⟨r, by rw [hb2]; exact hr⟩
      have r2 : Rest q2 := by
        obtain ⟨t, b, h1, h2, r, h3⟩ := hr.keeps k1'
        exact ⟨t, b, h1, by rw [hb2]; exact h2, r, by rw [hb2]; exact h3⟩
      have v2 : q2.block.hasModalGroupViolation = false := by
        rw [hb2, k1'.counts]; exact hv1
      have g2 := settings2_gone q2 (r2.groups v2) (ht.coords.left l2)
      have l3 := (settings2_spec q2).1.left
      obtain ⟨b4, -⟩ := changeData_spec q2.settings2
      have l4 : Left q2.settings2 q2.settings2.changeData := ⟨[], by rw [b4]; simp⟩
      refine ⟨q2.settings2.changeData, (l2.trans l3).trans l4, ?_, execute_cases e'.symm⟩
      rintro w hw (hk | hk)
      · refine (Gone.left (p := q1) g1 ?_) w hw hk
        obtain ⟨r, hr⟩ := l3.trans l4
        exact ⟨r, by rw [← hb2]; exact hr⟩
      · exact g2.left l4 w hw hk

/-- Without offset and radius words nothing is read outside the arrays. -/
theorem rest_total {p : Parser} (m : SimplifiedMotion) (hr : Rest p) (h : p.block.hasOffset = false ∧ p.block.hasRadius = false) :
    ∃ p' m', p.parseBlock m = .ok (p', m') := by
  have hoff : ∀ {K : Word → Prop} {q : Parser}, Keeps K p q → q.block.hasOffset = false ∧ q.block.hasRadius = false := by
    intro K q hk
    rw [hk.counts]
    exact h
  rcases parse_split p m with ⟨-, e⟩ | ⟨-, -, e⟩ | ⟨h1, h2, -⟩
  · exact ⟨_, _, e⟩
  · exact ⟨_, _, e⟩
  · by_cases hd : IsDwell p.block.words
    · obtain ⟨q, x, i, j, hk, -, -, -, -, -, -, e⟩ := parse_dwell m hr rfl h1 h2 hd
      rw [e]
      have ho := hoff hk
      obtain ⟨r, e'⟩ := moveThen_total ({ q.setLetter .P x with result := .okContextUpdateAndMotion } : Parser)
        { m with type := .none } .pauseAndResume (fun p => (p.removeWord i).removeWord j) (.inr ho)
      exact ⟨r.1, r.2, e'⟩
    · obtain ⟨q, hk, -, e⟩ := parse_ready hr rfl h1 h2 hd m
      rw [e]
      obtain ⟨r, e'⟩ := execute_total q { m with type := .none } (.inl (hoff hk))
      exact ⟨r.1, r.2, e'⟩

end Moovr.GCode
