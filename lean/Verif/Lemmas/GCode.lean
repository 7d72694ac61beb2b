import Verif.Spec.GCodeWords
import Verif.Lemmas.GCodeBlock
/-!
# The steps of `parseBlock`: which words they remove and what they change
-/
namespace Moovr.GCode
open Parser

theorem remove_perm' (b : Block) {i : Nat} (hi : i < b.words.length) : b.words.Perm (b.words[i] :: (b.removeWord i).words) := by
  unfold Block.removeWord
  rw [if_pos hi]
  simp only
  have hsplit : b.words = b.words.take i ++ b.words[i] :: b.words.drop (i + 1) := by
    rw [List.getElem_cons_drop, List.take_append_drop]
  generalize hu : b.words.take i = u at hsplit
  generalize hw : b.words[i] = w at hsplit
  generalize hv : b.words.drop (i + 1) = v at hsplit
  have hlen : u.length = i := by rw [← hu, List.length_take]; omega
  rw [hsplit]
  have hset : ∀ z, (u ++ w :: v).set i z = u ++ z :: v := by
    intro z
    rw [List.set_append, if_neg (by omega), hlen, Nat.sub_self, List.set_cons_zero]
  rw [hset]
  rcases List.eq_nil_or_concat v with rfl | ⟨v', z, rfl⟩
  · have : (if 1 < (u ++ [w]).length then (u ++ [(u ++ [w]).getLastD default]).dropLast else (u ++ [w]).dropLast) = u := by
      split_ifs <;> simp
    rw [this]
    exact List.perm_append_singleton w u
  · rw [if_pos (by simp; omega)]
    have h1 : (u ++ w :: (v' ++ [z])).getLastD default = z := by
      rw [show u ++ w :: (v' ++ [z]) = (u ++ w :: v') ++ [z] by simp, List.getLastD_concat]
    simp only [List.concat_eq_append] at *
    rw [h1, show u ++ z :: (v' ++ [z]) = (u ++ z :: v') ++ [z] by simp, List.dropLast_concat]
    refine List.perm_middle.trans (List.Perm.cons w ?_)
    exact List.Perm.append_left u (List.perm_append_singleton z v')

theorem remove_perm (b : Block) {q : Word → Bool} {i : Nat} (h : b.words.findIdx? q = some i) :
    ∃ w, q w = true ∧ b.number i = w.number ∧ b.words.Perm (w :: (b.removeWord i).words) := by
  obtain ⟨hi, hq, -⟩ := List.findIdx?_eq_some_iff_getElem.1 h
  refine ⟨b.words[i], hq, ?_, ?_⟩
  · unfold Block.number; simp [List.getD, hi]
  · exact remove_perm' b hi

/-- What a step leaves alone: it only removes words of a kind `K`, and changes neither counters nor positions. -/
structure Keeps (K : Word → Prop) (p p' : Parser) : Prop where
  counts : p'.block = { p.block with words := p'.block.words }
  words : ∃ r : List Word, (∀ w ∈ r, K w) ∧ p.block.words.Perm (r ++ p'.block.words)
  position : p'.state.currentPosition = p.state.currentPosition
  next : p'.state.nextPosition = p.state.nextPosition
  origin : p'.state.wcsOrigin = p.state.wcsOrigin

theorem Keeps.refl (K : Word → Prop) (p : Parser) : Keeps K p p :=
  ⟨rfl, ⟨[], by simp, by simp⟩, rfl, rfl, rfl⟩

theorem Keeps.trans {K K' : Word → Prop} {p p' p'' : Parser} (h : Keeps K p p') (h' : Keeps K' p' p'') :
    Keeps (fun w => K w ∨ K' w) p p'' := by
  obtain ⟨r, h1, h2⟩ := h.words
  obtain ⟨r', h1', h2'⟩ := h'.words
  refine ⟨?_, ⟨r ++ r', ?_, ?_⟩, h'.position.trans h.position, h'.next.trans h.next, h'.origin.trans h.origin⟩
  · rw [h'.counts, h.counts]
  · intro w hw
    rcases List.mem_append.1 hw with hw | hw
    · exact .inl (h1 w hw)
    · exact .inr (h1' w hw)
  · rw [List.append_assoc]
    exact h2.trans (List.Perm.append_left r h2')

theorem Keeps.mono {K K' : Word → Prop} {p p' : Parser} (h : Keeps K p p') (hK : ∀ w, K w → K' w) : Keeps K' p p' := by
  obtain ⟨r, h1, h2⟩ := h.words
  exact ⟨h.counts, ⟨r, fun w hw => hK w (h1 w hw), h2⟩, h.position, h.next, h.origin⟩

theorem Keeps.mem {K : Word → Prop} {p p' : Parser} (h : Keeps K p p') {w : Word} (hw : ¬ K w) :
    w ∈ p'.block.words ↔ w ∈ p.block.words := by
  obtain ⟨r, h1, h2⟩ := h.words
  rw [h2.mem_iff, List.mem_append]
  exact ⟨.inr, fun h => h.resolve_left fun h => hw (h1 w h)⟩

theorem Keeps.sub {K : Word → Prop} {p p' : Parser} (h : Keeps K p p') {w : Word} (hw : w ∈ p'.block.words) :
    w ∈ p.block.words := by
  obtain ⟨r, -, h2⟩ := h.words
  exact h2.mem_iff.2 (List.mem_append_right r hw)

theorem Keeps.hasCode {K : Word → Prop} {p p' : Parser} (h : Keeps K p p') {l : Char} {k : Nat}
    (hK : ∀ w, K w → ¬ Code l k w) : HasCode p'.block.words l k ↔ HasCode p.block.words l k :=
  ⟨fun ⟨w, h1, h2⟩ => ⟨w, h.sub h1, h2⟩, fun ⟨w, h1, h2⟩ => ⟨w, (h.mem fun hk => hK w hk h2).2 h1, h2⟩⟩

theorem Keeps.hasVal {K : Word → Prop} {p p' : Parser} (h : Keeps K p p') {l : Char}
    (hK : ∀ w, K w → ¬ WithLetter l w) (x : ℚ) : HasVal p'.block.words l x ↔ HasVal p.block.words l x :=
  ⟨fun ⟨w, h1, h2⟩ => ⟨w, h.sub h1, h2⟩, fun ⟨w, h1, h2⟩ => ⟨w, (h.mem fun hk => hK w hk h2.1).2 h1, h2⟩⟩

theorem Keeps.hasLetter {K : Word → Prop} {p p' : Parser} (h : Keeps K p p') {l : Char}
    (hK : ∀ w, K w → ¬ WithLetter l w) : HasLetter p'.block.words l ↔ HasLetter p.block.words l :=
  ⟨fun ⟨w, h1, h2⟩ => ⟨w, h.sub h1, h2⟩, fun ⟨w, h1, h2⟩ => ⟨w, (h.mem fun hk => hK w hk h2).2 h1, h2⟩⟩

/-! ## Searching -/

theorem search2_none {b : Block} {l : Char} {k : Nat} : b.search2 l k = none ↔ ¬ HasCode b.words l k := by
  unfold Block.search2 HasCode Code
  rw [List.findIdx?_eq_none_iff]
  constructor
  · rintro h ⟨w, hw, h1, h2⟩
    have := h w hw
    simp [h1, h2] at this
  · intro h w hw
    by_contra hc
    simp only [Bool.not_eq_false, Bool.and_eq_true, decide_eq_true_eq] at hc
    exact h ⟨w, hw, hc⟩

theorem search2_some {b : Block} {l : Char} {k : Nat} {i : Nat} (h : b.search2 l k = some i) :
    HasCode b.words l k ∧ ∃ w, Code l k w ∧ b.number i = w.number ∧ b.words.Perm (w :: (b.removeWord i).words) := by
  refine ⟨by by_contra hc; rw [search2_none.2 hc] at h; simp at h, ?_⟩
  obtain ⟨w, h1, h2⟩ := remove_perm b h
  simp only [Bool.and_eq_true, decide_eq_true_eq] at h1
  exact ⟨w, h1, h2⟩

theorem search_none {b : Block} {l : Char} : b.search l = none ↔ ¬ HasLetter b.words l := by
  unfold Block.search HasLetter WithLetter
  rw [List.findIdx?_eq_none_iff]
  simp

theorem search_some {b : Block} {l : Char} {i : Nat} (h : b.search l = some i) :
    ∃ w, WithLetter l w ∧ b.number i = w.number ∧ b.words.Perm (w :: (b.removeWord i).words) := by
  obtain ⟨w, h1, h2⟩ := remove_perm b h
  simp only [decide_eq_true_eq] at h1
  exact ⟨w, h1, h2⟩

theorem removeWord_counts (b : Block) (i : Nat) : b.removeWord i = { b with words := (b.removeWord i).words } := by
  unfold Block.removeWord
  split_ifs <;> rfl

theorem keeps_remove {K : Word → Prop} (p : Parser) (s : State) {i : Nat} {w : Word} (hw : K w)
    (hp : p.block.words.Perm (w :: (p.block.removeWord i).words)) (h1 : s.currentPosition = p.state.currentPosition)
    (h2 : s.nextPosition = p.state.nextPosition) (h3 : s.wcsOrigin = p.state.wcsOrigin) :
    Keeps K p (({ p with state := s } : Parser).removeWord i) :=
  ⟨removeWord_counts _ _, ⟨[w], by simpa using hw, hp⟩, h1, h2, h3⟩

theorem hasWords_of_hasCode {b : Block} {l : Char} {k : Nat} (h : HasCode b.words l k) : b.hasWords = true := by
  obtain ⟨w, hw, -⟩ := h
  unfold Block.hasWords
  rw [decide_eq_true_eq]
  exact List.length_pos_of_mem hw

theorem hasWords_of_hasLetter {b : Block} {l : Char} (h : HasLetter b.words l) : b.hasWords = true := by
  obtain ⟨w, hw, -⟩ := h
  unfold Block.hasWords
  rw [decide_eq_true_eq]
  exact List.length_pos_of_mem hw

/-! ## Steps setting a modal group -/

theorem apply2_none {p : Parser} {l : Char} {k : Nat} {f : Modal → Modal} (h : ¬ HasCode p.block.words l k) :
    p.apply2 l k f = none := by
  unfold apply2
  rw [search2_none.2 h]; rfl

theorem apply2_some {p : Parser} {l : Char} {k : Nat} {f : Modal → Modal} (h : HasCode p.block.words l k) :
    ∃ p', p.apply2 l k f = some p' ∧ Keeps (Code l k) p p' ∧ p'.state = { p.state with modal := f p.state.modal } := by
  rcases hs : p.block.search2 l k with _ | i
  · exact absurd h (search2_none.1 hs)
  · obtain ⟨-, w, h1, -, h3⟩ := search2_some hs
    refine ⟨_, by unfold apply2; rw [hs]; rfl, ?_, rfl⟩
    exact keeps_remove p _ h1 h3 rfl rfl rfl

/-- A sequence of alternatives for one letter. -/
def chain (p : Parser) (l : Char) : List (Nat × (Modal → Modal)) → Parser
  | [] => p
  | (k, f) :: t =>
    match p.apply2 l k f with
    | some p => p
    | none => chain p l t

/-- The modal state after them. -/
def chainModal (ws : List Word) (l : Char) : List (Nat × (Modal → Modal)) → Modal → Modal
  | [], m => m
  | (k, f) :: t, m => if HasCode ws l k then f m else chainModal ws l t m

theorem chain_spec (p : Parser) (l : Char) (t : List (Nat × (Modal → Modal))) :
    Keeps (fun w => w.letter = l.toNat ∧ w.intNumber ∈ t.map Prod.fst) p (chain p l t) ∧
    (chain p l t).state = { p.state with modal := chainModal p.block.words l t p.state.modal } := by
  induction t with
  | nil => exact ⟨.refl _ p, rfl⟩
  | cons a t ih =>
    obtain ⟨k, f⟩ := a
    unfold chain chainModal
    by_cases h : HasCode p.block.words l k
    · obtain ⟨p', e, h1, h2⟩ := apply2_some (f := f) h
      rw [e, if_pos h]
      exact ⟨h1.mono fun w hw => ⟨hw.1, by simp [hw.2]⟩, h2⟩
    · rw [apply2_none h, if_neg h]
      exact ⟨ih.1.mono fun w hw => ⟨hw.1, by simp only [List.map_cons, List.mem_cons]; exact .inr hw.2⟩, ih.2⟩

theorem chain_noWords {p : Parser} (h : p.block.hasWords = false) (l : Char) (t : List (Nat × (Modal → Modal))) :
    chain p l t = p := by
  induction t with
  | nil => rfl
  | cons a t ih =>
    unfold chain
    rw [apply2_none fun hc => by rw [hasWords_of_hasCode hc] at h; simp at h]
    exact ih

def distanceTable : List (Nat × (Modal → Modal)) :=
  [(900, fun m => { m with distance := .G90 }), (910, fun m => { m with distance := .G91 })]
def wcsTable : List (Nat × (Modal → Modal)) :=
  [(540, fun m => { m with coordinateSet := .G54 }), (550, fun m => { m with coordinateSet := .G55 }),
   (560, fun m => { m with coordinateSet := .G56 }), (570, fun m => { m with coordinateSet := .G57 }),
   (580, fun m => { m with coordinateSet := .G58 }), (590, fun m => { m with coordinateSet := .G59 }),
   (591, fun m => { m with coordinateSet := .G59_1 }), (592, fun m => { m with coordinateSet := .G59_2 }),
   (593, fun m => { m with coordinateSet := .G59_3 })]
def unitTable : List (Nat × (Modal → Modal)) :=
  [(200, fun m => { m with unit := .G20 }), (210, fun m => { m with unit := .G21 })]
def planeTable : List (Nat × (Modal → Modal)) :=
  [(170, fun m => { m with plane := .G17 }), (180, fun m => { m with plane := .G18 }), (190, fun m => { m with plane := .G19 })]
def overrideTable : List (Nat × (Modal → Modal)) :=
  [(480, fun m => { m with manualOverride := .M48 }), (490, fun m => { m with manualOverride := .M49 })]
def spindleTable : List (Nat × (Modal → Modal)) :=
  [(30, fun m => { m with spindle := .M3 }), (40, fun m => { m with spindle := .M4 }), (50, fun m => { m with spindle := .M5 })]

theorem guard_chain {p q : Parser} {l : Char} {t : List (Nat × (Modal → Modal))} (h : q = chain p l t) :
    (if p.block.hasWords then q else p) = chain p l t := by
  split_ifs with h1
  · exact h
  · rw [chain_noWords (by simpa using h1)]

theorem setDistanceMode_eq (p : Parser) : p.setDistanceMode = chain p 'G' distanceTable := guard_chain rfl
theorem setWCSMode_eq (p : Parser) : p.setWCSMode = chain p 'G' wcsTable := guard_chain rfl
theorem setUnitsMode_eq (p : Parser) : p.setUnitsMode = chain p 'G' unitTable := guard_chain rfl
theorem setArcPlane_eq (p : Parser) : p.setArcPlane = chain p 'G' planeTable := guard_chain rfl
theorem setOverrideMode_eq (p : Parser) : p.setOverrideMode = chain p 'M' overrideTable := guard_chain rfl
theorem setSpindleMode_eq (p : Parser) : p.setSpindleMode = chain p 'M' spindleTable := guard_chain rfl

theorem chain_single (p : Parser) (l : Char) (k : Nat) (f : Modal → Modal) : (p.apply2 l k f).getD p = chain p l [(k, f)] := by
  unfold chain
  cases p.apply2 l k f <;> rfl

theorem setCoolantMode_eq (p : Parser) : p.setCoolantMode =
    chain (chain (chain p 'M' [(70, fun m => { m with coolantFlood := .M7 })]) 'M'
      [(80, fun m => { m with coolantMist := .M8 })]) 'M' [(90, fun m => { m with coolantFlood := .M9, coolantMist := .M9 })] := by
  unfold setCoolantMode
  simp only [chain_single]
  split_ifs with h
  · rfl
  · have h' : p.block.hasWords = false := by simpa using h
    simp only [chain_noWords h']

/-! ## Steps reading values -/

theorem hasVal_of_perm {b : Block} {l : Char} {w : Word} {r : List Word} (h : WithLetter l w) (hp : b.words.Perm (w :: r)) :
    HasVal b.words l w.number := ⟨w, hp.mem_iff.2 (by simp), h, rfl⟩

theorem getWord_spec (p : Parser) (c : Char) (l : Letter) :
    Keeps (WithLetter c) p (p.getWord c l) ∧ (p.getWord c l).state.modal = p.state.modal ∧
    (∀ k, k ≠ l → (p.getWord c l).state.letterValue k = p.state.letterValue k) ∧
    (HasLetter p.block.words c → HasVal p.block.words c ((p.getWord c l).state.letterValue l)) ∧
    (¬ HasLetter p.block.words c → p.getWord c l = p) := by
  unfold getWord
  rcases hs : p.block.search c with _ | i
  · have h := search_none.1 hs
    exact ⟨.refl _ p, rfl, fun _ _ => rfl, fun hc => absurd hc h, fun _ => rfl⟩
  · obtain ⟨w, h1, h2, h3⟩ := search_some hs
    refine ⟨keeps_remove p _ h1 h3 rfl rfl rfl, rfl, fun k hk => if_neg hk, fun _ => ?_, fun hc => ?_⟩
    · have : ((p.setLetter l (p.block.number i)).removeWord i).state.letterValue l = p.block.number i := if_pos rfl
      show HasVal p.block.words c (((p.setLetter l (p.block.number i)).removeWord i).state.letterValue l)
      rw [this, h2]
      exact hasVal_of_perm h1 h3
    · exact absurd ⟨w, h3.mem_iff.2 (by simp), h1⟩ hc

theorem getLineNumberWord_spec (p : Parser) :
    Keeps (WithLetter 'N') p p.getLineNumberWord ∧ p.getLineNumberWord.state.modal = p.state.modal ∧
    (∀ k, k ≠ .N → p.getLineNumberWord.state.letterValue k = p.state.letterValue k) := by
  unfold getLineNumberWord
  rcases hs : p.block.search 'N' with _ | i
  · exact ⟨.refl _ p, rfl, fun _ _ => rfl⟩
  · obtain ⟨w, h1, h2, h3⟩ := search_some hs
    cases i with
    | zero =>
      simp only
      split_ifs
      · exact ⟨keeps_remove p _ h1 h3 rfl rfl rfl, rfl, fun k hk => if_neg hk⟩
      · exact ⟨⟨rfl, ⟨[], by simp, by simp [fail]⟩, rfl, rfl, rfl⟩, rfl, fun _ _ => rfl⟩
    | succ i => exact ⟨⟨rfl, ⟨[], by simp, by simp [fail]⟩, rfl, rfl, rfl⟩, rfl, fun _ _ => rfl⟩

theorem setFeedrateMode_spec (p : Parser) :
    p.setFeedrateMode.block = p.block ∧
    p.setFeedrateMode.state = { p.state with
      modal := { p.state.modal with feedRate := (if HasCode p.block.words 'G' 930 then .G93 else
        (if HasCode p.block.words 'G' 940 then .G94 else p.state.modal.feedRate)) }
      letterValue := fun l =>
        if l = .F ∧ (HasCode p.block.words 'G' 930 ∨ HasCode p.block.words 'G' 940) then 0 else p.state.letterValue l } := by
  unfold setFeedrateMode
  by_cases h1 : HasCode p.block.words 'G' 930
  · rw [if_pos (hasWords_of_hasCode h1)]
    rcases hs : p.block.search2 'G' 930 with _ | i
    · exact absurd h1 (search2_none.1 hs)
    · simp [setLetter, setModal, h1]
  · rw [search2_none.2 h1]
    by_cases h2 : HasCode p.block.words 'G' 940
    · rw [if_pos (hasWords_of_hasCode h2)]
      rcases hs : p.block.search2 'G' 940 with _ | i
      · exact absurd h2 (search2_none.1 hs)
      · simp [setLetter, setModal, h1, h2]
    · rw [search2_none.2 h2]
      simp [h1, h2]

theorem setFeedrateValue_spec (p : Parser) :
    Keeps (WithLetter 'F') p p.setFeedrateValue ∧ p.setFeedrateValue.state.modal = p.state.modal ∧
    (∀ k, k ≠ .F → p.setFeedrateValue.state.letterValue k = p.state.letterValue k) ∧
    ((∃ x, 0 < x ∧ HasVal p.block.words 'F' x ∧ p.setFeedrateValue.state.letterValue .F = x) ∨
     (p.setFeedrateValue.state.letterValue .F = p.state.letterValue .F ∧
      (HasLetter p.block.words 'F' → ∃ x, x ≤ 0 ∧ HasVal p.block.words 'F' x))) := by
  unfold setFeedrateValue
  by_cases hw : p.block.hasWords = true
  · rw [if_pos hw]
    rcases hs : p.block.search 'F' with _ | i
    · have h := search_none.1 hs
      simp only
      split_ifs
      · exact ⟨⟨rfl, ⟨[], by simp, by simp [fail]⟩, rfl, rfl, rfl⟩, rfl, fun _ _ => rfl, .inr ⟨rfl, fun hc => absurd hc h⟩⟩
      · exact ⟨.refl _ p, rfl, fun _ _ => rfl, .inr ⟨rfl, fun hc => absurd hc h⟩⟩
    · obtain ⟨w, h1, h2, h3⟩ := search_some hs
      simp only
      split_ifs with h0
      · refine ⟨keeps_remove p _ h1 h3 rfl rfl rfl, rfl, fun k hk => if_neg hk, .inl ⟨p.block.number i, h0, ?_, ?_⟩⟩
        · rw [h2]; exact hasVal_of_perm h1 h3
        · simp [removeWord, setLetter]
      · refine ⟨⟨rfl, ⟨[], by simp, by simp [fail]⟩, rfl, rfl, rfl⟩, rfl, fun _ _ => rfl, .inr ⟨rfl, fun _ => ?_⟩⟩
        exact ⟨_, not_lt.1 h0, by rw [h2]; exact hasVal_of_perm h1 h3⟩
  · rw [if_neg hw]
    exact ⟨.refl _ p, rfl, fun _ _ => rfl, .inr ⟨rfl, fun hc => absurd (hasWords_of_hasLetter hc) hw⟩⟩

theorem setSpindleSpeed_spec (p : Parser) :
    Keeps (WithLetter 'S') p p.setSpindleSpeed ∧ p.setSpindleSpeed.state.modal = p.state.modal ∧
    (∀ k, k ≠ .S → p.setSpindleSpeed.state.letterValue k = p.state.letterValue k) ∧
    ((∃ x, 0 ≤ x ∧ HasVal p.block.words 'S' x ∧ p.setSpindleSpeed.state.letterValue .S = x) ∨
     (p.setSpindleSpeed.state.letterValue .S = p.state.letterValue .S ∧
      (HasLetter p.block.words 'S' → ∃ x, x < 0 ∧ HasVal p.block.words 'S' x))) := by
  unfold setSpindleSpeed
  by_cases hw : p.block.hasWords = true
  · rw [if_pos hw]
    rcases hs : p.block.search 'S' with _ | i
    · have h := search_none.1 hs
      exact ⟨.refl _ p, rfl, fun _ _ => rfl, .inr ⟨rfl, fun hc => absurd hc h⟩⟩
    · obtain ⟨w, h1, h2, h3⟩ := search_some hs
      simp only
      split_ifs with h0
      · refine ⟨keeps_remove p _ h1 h3 rfl rfl rfl, rfl, fun k hk => if_neg hk, .inl ⟨p.block.number i, h0, ?_, ?_⟩⟩
        · rw [h2]; exact hasVal_of_perm h1 h3
        · simp [removeWord, setLetter]
      · refine ⟨⟨rfl, ⟨[], by simp, by simp [fail]⟩, rfl, rfl, rfl⟩, rfl, fun _ _ => rfl, .inr ⟨rfl, fun _ => ?_⟩⟩
        exact ⟨_, not_le.1 h0, by rw [h2]; exact hasVal_of_perm h1 h3⟩
  · rw [if_neg hw]
    exact ⟨.refl _ p, rfl, fun _ _ => rfl, .inr ⟨rfl, fun hc => absurd (hasWords_of_hasLetter hc) hw⟩⟩

theorem changeData_spec (p : Parser) : p.changeData.block = p.block ∧ p.changeData.state = p.state := by
  unfold changeData fail
  cases p.block.search2 'G' 100 <;> simp only <;> split_ifs <;> exact ⟨rfl, rfl⟩

end Moovr.GCode
