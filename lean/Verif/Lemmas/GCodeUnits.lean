import Verif.Lemmas.GCodeLoop
import Verif.Spec.GCodeUnits
/-!
# Interpreting a block in inches and in millimetres
-/
namespace Moovr.GCode
open Parser

variable {fm : FeedMode}

theorem metricWord_letter (w : Word) : (metricWord fm w).letter = w.letter := by
  unfold metricWord
  split_ifs <;> rfl

theorem metricWord_int (w : Word) : (metricWord fm w).intNumber = w.intNumber ∨
    (Code 'G' 200 w ∧ (metricWord fm w).intNumber = 210) := by
  unfold metricWord
  split_ifs with h1 h2
  · exact .inl rfl
  · exact .inr ⟨h2, rfl⟩
  · exact .inl rfl

theorem metricWord_code {l : Char} {k : Nat} (hk : ¬ (k = 200 ∨ k = 210)) (w : Word) :
    Code l k (metricWord fm w) ↔ Code l k w := by
  unfold Code
  rw [metricWord_letter]
  rcases metricWord_int (fm := fm) w with h | ⟨h1, h2⟩
  · rw [h]
  · rw [h2, h1.2]
    constructor
    · rintro ⟨-, rfl⟩; exact absurd (.inr rfl) hk
    · rintro ⟨-, rfl⟩; exact absurd (.inl rfl) hk

theorem metric_search (p : Parser) (c : Char) : (metric fm p).block.search c = p.block.search c := by
  unfold Block.search metric
  simp only [List.findIdx?_map]
  congr 1
  funext w
  simp [metricWord_letter]

theorem metric_search2 (p : Parser) (l : Char) {k : Nat} (hk : ¬ (k = 200 ∨ k = 210)) :
    (metric fm p).block.search2 l k = p.block.search2 l k := by
  unfold Block.search2 metric
  simp only [List.findIdx?_map]
  congr 1
  funext w
  have := metricWord_code (fm := fm) (l := l) hk w
  unfold Code at this
  simp only [Function.comp]
  rw [Bool.eq_iff_iff]
  simpa using this

theorem metric_unit (p : Parser) (h : ¬ HasCode p.block.words 'G' 210) :
    (metric fm p).block.search2 'G' 210 = p.block.search2 'G' 200 := by
  unfold Block.search2 metric
  simp only [List.findIdx?_map]
  have key : ∀ ws : List Word, (∀ w ∈ ws, ¬ Code 'G' 210 w) →
      List.findIdx? ((fun w : Word => decide (w.letter = 'G'.toNat) && decide (w.intNumber = 210)) ∘ metricWord fm) ws =
      List.findIdx? (fun w : Word => decide (w.letter = 'G'.toNat) && decide (w.intNumber = 200)) ws := by
    intro ws
    induction ws with
    | nil => simp
    | cons w ws ih =>
      intro h
      rw [List.findIdx?_cons, List.findIdx?_cons, ih fun w hw => h w (List.mem_cons_of_mem _ hw)]
      have e : ((fun w : Word => decide (w.letter = 'G'.toNat) && decide (w.intNumber = 210)) ∘ metricWord fm) w =
          (decide (w.letter = 'G'.toNat) && decide (w.intNumber = 200)) := by
        simp only [Function.comp, metricWord_letter]
        have h0 := h w (by simp)
        unfold Code at h0
        rw [Bool.eq_iff_iff]
        simp only [Bool.and_eq_true, decide_eq_true_eq]
        refine and_congr_right fun hl => ?_
        have hno : ¬ ((∃ c ∈ lengthLetters, WithLetter c w) ∨ (WithLetter 'F' w ∧ fm = .G94)) := by
          rintro (⟨c, hc, h'⟩ | ⟨h', -⟩)
          · unfold WithLetter at h'; rw [hl] at h'; revert hc h'
            simp only [lengthLetters, List.mem_cons, List.not_mem_nil, or_false]
            rintro (rfl | rfl | rfl | rfl | rfl | rfl | rfl) <;> decide
          · unfold WithLetter at h'; rw [hl] at h'; revert h'; decide
        unfold metricWord
        rw [if_neg hno]
        unfold Code
        simp only [hl, true_and]
        simp only [hl, true_and] at h0
        split_ifs with h2
        · simp [h2]
        · simp [h0, h2]
      rw [e]
  exact key _ fun w hw hc => h ⟨w, hw, hc⟩

theorem metric_no200 (p : Parser) : (metric fm p).block.search2 'G' 200 = none := by
  rw [search2_none]
  rintro ⟨w, hw, h1, h2⟩
  obtain ⟨v, -, rfl⟩ := List.mem_map.1 hw
  rw [metricWord_letter] at h1
  rcases metricWord_int (fm := fm) v with h | ⟨-, h⟩
  · have hc : Code 'G' 200 v := ⟨h1, by rw [← h, h2]⟩
    have hno : ¬ ((∃ c ∈ lengthLetters, WithLetter c v) ∨ (WithLetter 'F' v ∧ fm = .G94)) := by
      rintro (⟨c, hc', h'⟩ | ⟨h', -⟩)
      · unfold WithLetter at h'; rw [h1] at h'; revert hc' h'
        simp only [lengthLetters, List.mem_cons, List.not_mem_nil, or_false]
        rintro (rfl | rfl | rfl | rfl | rfl | rfl | rfl) <;> decide
      · unfold WithLetter at h'; rw [h1] at h'; revert h'; decide
    have e : (metricWord fm v).intNumber = 210 := by
      unfold metricWord
      rw [if_neg hno, if_pos hc]
    rw [e] at h2; omega
  · rw [h] at h2; omega

theorem metric_hasWords (p : Parser) : (metric fm p).block.hasWords = p.block.hasWords := by
  unfold Block.hasWords metric
  simp

theorem metric_remove (p : Parser) (i : Nat) : (metric fm p).removeWord i = metric fm (p.removeWord i) := by
  unfold removeWord metric Block.removeWord
  simp only [List.length_map]
  by_cases hi : i < p.block.words.length
  · simp only [if_pos hi]
    congr 2
    by_cases h1 : 1 < p.block.words.length
    · simp only [if_pos h1]
      have hne : p.block.words ≠ [] := List.ne_nil_of_length_pos (by omega)
      have e : (p.block.words.map (metricWord fm)).getLastD default = metricWord fm (p.block.words.getLastD default) := by
        rw [List.getLastD_eq_getLast?, List.getLastD_eq_getLast?, List.getLast?_map, List.getLast?_eq_getLast_of_ne_nil hne]
        rfl
      rw [e, ← List.map_set, List.map_dropLast]
    · simp only [if_neg h1, List.map_dropLast]
  · simp only [if_neg hi]

theorem metric_number (p : Parser) {i : Nat} (hi : i < p.block.words.length) :
    (metric fm p).block.number i = (metricWord fm (p.block.words.getD i default)).number := by
  unfold Block.number metric
  simp [List.getD, hi]

theorem metric_setModal (p : Parser) (m : Modal) (h : m.feedRate = p.state.modal.feedRate) :
    metric fm (p.setModal m) = (metric fm p).setModal { m with unit := .G21 } := by
  unfold setModal metric metricState
  simp only [h]

theorem metric_setLetter (p : Parser) (l : Letter) (x : ℚ) :
    metric fm (p.setLetter l x) = (metric fm p).setLetter l (metricValue p.state.modal.feedRate l x) := by
  unfold setLetter metric metricState
  simp only
  congr 2
  funext k
  by_cases h : k = l
  · subst h; simp
  · simp [h]

theorem metric_fail (p : Parser) (e : ParseError) : metric fm (p.fail e) = (metric fm p).fail e := rfl

theorem metric_chain (p : Parser) (l : Char) (t : List (Nat × (Modal → Modal))) (hk : ∀ e ∈ t, ¬ (e.1 = 200 ∨ e.1 = 210))
    (hf : ∀ e ∈ t, ∀ m : Modal, (e.2 m).feedRate = m.feedRate ∧ e.2 { m with unit := .G21 } = { e.2 m with unit := .G21 }) :
    metric fm (chain p l t) = chain (metric fm p) l t := by
  induction t with
  | nil => rfl
  | cons a t ih =>
    obtain ⟨k, f⟩ := a
    unfold chain apply2
    rw [metric_search2 p l (hk (k, f) (by simp))]
    rcases p.block.search2 l k with _ | i
    · simp only [Option.map_none]
      exact ih (fun e he => hk e (List.mem_cons_of_mem _ he)) (fun e he => hf e (List.mem_cons_of_mem _ he))
    · simp only [Option.map_some]
      rw [← metric_remove, metric_setModal _ _ (hf (k, f) (by simp) p.state.modal).1]
      congr 2
      exact ((hf (k, f) (by simp) p.state.modal).2).symm

theorem search_letter {p : Parser} {c : Char} {i : Nat} (h : p.block.search c = some i) :
    i < p.block.words.length ∧ WithLetter c (p.block.words.getD i default) := by
  obtain ⟨hi, hq, -⟩ := List.findIdx?_eq_some_iff_getElem.1 h
  refine ⟨hi, ?_⟩
  simpa [WithLetter, List.getD, hi] using hq

/-- The value of the word found, in millimetres. -/
theorem metric_value (p : Parser) {l : Letter} (hl : l ≠ .T) {i : Nat} (h : p.block.search (charOf l) = some i) :
    (metric fm p).block.number i = metricValue fm l (p.block.number i) := by
  obtain ⟨hi, hw⟩ := search_letter h
  rw [metric_number p hi]
  unfold Block.number
  generalize p.block.words.getD i default = w at *
  unfold WithLetter at hw
  have hng : ¬ Code 'G' 200 w := by
    rintro ⟨h1, -⟩
    rw [hw] at h1
    revert h1 hl
    cases l <;> decide
  by_cases hc : (∃ c ∈ lengthLetters, WithLetter c w) ∨ (WithLetter 'F' w ∧ fm = .G94)
  · have e : (metricWord fm w).number = w.number * inch := by unfold metricWord; rw [if_pos hc]
    rw [e]
    unfold WithLetter at hc
    rw [hw] at hc
    cases l <;> first | rfl | exact absurd rfl hl | skip
    all_goals first
      | (exfalso
         rcases hc with ⟨c, h1, h2⟩ | ⟨h, -⟩
         · revert h1 h2
           simp only [lengthLetters, List.mem_cons, List.not_mem_nil, or_false]
           rintro (rfl | rfl | rfl | rfl | rfl | rfl | rfl) <;> decide
         · revert h; decide)
      | (have : fm = .G94 := by
          rcases hc with ⟨c, h1, h2⟩ | h
          · exfalso; revert h1 h2
            simp only [lengthLetters, List.mem_cons, List.not_mem_nil, or_false]
            rintro (rfl | rfl | rfl | rfl | rfl | rfl | rfl) <;> decide
          · exact h.2
         simp [metricValue, this])
  · have e : (metricWord fm w).number = w.number := by unfold metricWord; rw [if_neg hc, if_neg hng]
    rw [e]
    have hnl : ∀ c ∈ lengthLetters, (charOf l).toNat ≠ c.toNat := by
      intro c h1 h2
      exact hc (.inl ⟨c, h1, by unfold WithLetter; rw [hw, h2]⟩)
    have hnf : (charOf l).toNat = 'F'.toNat → fm ≠ .G94 := by
      intro h1 h2
      exact hc (.inr ⟨by unfold WithLetter; rw [hw, h1], h2⟩)
    cases l <;> first | rfl | exact absurd rfl (hnl _ (by decide)) | skip
    have := hnf rfl
    simp [metricValue, this]

/-! ## The settings -/

theorem metric_getWord (p : Parser) {l : Letter} (hl : l ∈ [Letter.X, .Y, .Z, .I, .J, .K, .R]) :
    metric fm (p.getWord (charOf l) l) = (metric fm p).getWord (charOf l) l := by
  unfold getWord
  rw [metric_search]
  rcases h : p.block.search (charOf l) with _ | i
  · rfl
  · simp only
    rw [← metric_remove, metric_setLetter, metric_value p (by rintro rfl; simp at hl) h]
    congr 2
    revert hl
    cases l <;> first | (intro _; rfl) | (intro h; simp at h)

theorem metric_axisWords (p : Parser) : metric fm p.getAxisOffsetRadiusWords = (metric fm p).getAxisOffsetRadiusWords := by
  have ite : ∀ (c : Bool) (a b : Parser), metric fm (if c = true then a else b) = if c = true then metric fm a else metric fm b := by
    intro c a b; cases c <;> rfl
  have gX : ∀ p : Parser, metric fm (p.getWord 'X' .X) = (metric fm p).getWord 'X' .X :=
    fun p => metric_getWord (l := .X) p (by simp)
  have gY : ∀ p : Parser, metric fm (p.getWord 'Y' .Y) = (metric fm p).getWord 'Y' .Y :=
    fun p => metric_getWord (l := .Y) p (by simp)
  have gZ : ∀ p : Parser, metric fm (p.getWord 'Z' .Z) = (metric fm p).getWord 'Z' .Z :=
    fun p => metric_getWord (l := .Z) p (by simp)
  have gI : ∀ p : Parser, metric fm (p.getWord 'I' .I) = (metric fm p).getWord 'I' .I :=
    fun p => metric_getWord (l := .I) p (by simp)
  have gJ : ∀ p : Parser, metric fm (p.getWord 'J' .J) = (metric fm p).getWord 'J' .J :=
    fun p => metric_getWord (l := .J) p (by simp)
  have gK : ∀ p : Parser, metric fm (p.getWord 'K' .K) = (metric fm p).getWord 'K' .K :=
    fun p => metric_getWord (l := .K) p (by simp)
  have gR : ∀ p : Parser, metric fm (p.getWord 'R' .R) = (metric fm p).getWord 'R' .R :=
    fun p => metric_getWord (l := .R) p (by simp)
  unfold getAxisOffsetRadiusWords
  have e1 : metric fm (if p.block.hasAxis = true then ((p.getWord 'X' .X).getWord 'Y' .Y).getWord 'Z' .Z else p) =
      if (metric fm p).block.hasAxis = true then (((metric fm p).getWord 'X' .X).getWord 'Y' .Y).getWord 'Z' .Z else metric fm p := by
    rw [ite, ← gX, ← gY, ← gZ]
    rfl
  rw [← e1]
  generalize (if p.block.hasAxis = true then ((p.getWord 'X' .X).getWord 'Y' .Y).getWord 'Z' .Z else p) = q
  have e2 : metric fm (if q.block.hasOffset = true then ((q.getWord 'I' .I).getWord 'J' .J).getWord 'K' .K else q) =
      if (metric fm q).block.hasOffset = true then (((metric fm q).getWord 'I' .I).getWord 'J' .J).getWord 'K' .K else metric fm q := by
    rw [ite, ← gI, ← gJ, ← gK]
    rfl
  simp only
  rw [← e2]
  generalize (if q.block.hasOffset = true then ((q.getWord 'I' .I).getWord 'J' .J).getWord 'K' .K else q) = r
  rw [ite, ← gR]
  rfl

theorem metric_line (p : Parser) : metric fm p.getLineNumberWord = (metric fm p).getLineNumberWord := by
  unfold getLineNumberWord
  rw [metric_search]
  rcases h : p.block.search 'N' with _ | i
  · rfl
  · cases i with
    | succ i => rfl
    | zero =>
      simp only
      have e := metric_value (fm := fm) p (l := .N) (by simp) h
      have e' : (metric fm p).block.number 0 = p.block.number 0 := e
      rw [e']
      split_ifs
      · rw [← metric_remove, metric_setLetter]; rfl
      · rfl

theorem metric_feedMode (p : Parser) : metric fm p.setFeedrateMode = (metric fm p).setFeedrateMode := by
  have key : ∀ f : FeedMode, metric fm ((p.setModal { p.state.modal with feedRate := f }).setLetter .F 0) =
      ((metric fm p).setModal { (metric fm p).state.modal with feedRate := f }).setLetter .F 0 := by
    intro f
    unfold setModal setLetter metric metricState
    simp only
    congr 2
    funext k
    cases k <;> simp [metricValue]
  unfold setFeedrateMode
  rw [metric_hasWords, metric_search2 p 'G' (by decide), metric_search2 p 'G' (by decide)]
  split_ifs
  · rcases p.block.search2 'G' 930 with _ | i
    · rcases p.block.search2 'G' 940 with _ | i
      · rfl
      · exact key .G94
    · exact key .G93
  · rfl

theorem metric_feed (p : Parser) (h : p.state.modal.feedRate = fm) : metric fm p.setFeedrateValue = (metric fm p).setFeedrateValue := by
  unfold setFeedrateValue
  rw [metric_hasWords, metric_search]
  by_cases h1 : p.block.hasWords = true
  · rw [if_pos h1, if_pos h1]
    rcases hs : p.block.search 'F' with _ | i
    · simp only
      have e : (metric fm p).state.modal.feedRate = p.state.modal.feedRate := rfl
      rw [e]
      split_ifs <;> rfl
    · simp only
      have e := metric_value (fm := fm) p (l := .F) (by simp) hs
      rw [e]
      have hpos : 0 < metricValue fm .F (p.block.number i) ↔ 0 < p.block.number i := by
        unfold metricValue inch
        split_ifs
        · constructor <;> intro h <;> linarith
        · rfl
      by_cases h0 : 0 < p.block.number i
      · rw [if_pos h0, if_pos (hpos.2 h0), ← metric_remove, metric_setLetter, h]
      · rw [if_neg h0, if_neg fun h => h0 (hpos.1 h)]
        rfl
  · rw [if_neg h1, if_neg h1]

theorem metric_speed (p : Parser) : metric fm p.setSpindleSpeed = (metric fm p).setSpindleSpeed := by
  unfold setSpindleSpeed
  rw [metric_hasWords, metric_search]
  split_ifs with h1
  · rcases hs : p.block.search 'S' with _ | i
    · rfl
    · simp only
      have e : (metric fm p).block.number i = p.block.number i := metric_value (fm := fm) p (l := .S) (by simp) hs
      rw [e]
      split_ifs
      · rw [← metric_remove, metric_setLetter]; rfl
      · rfl
  · rfl

theorem metric_spindle (p : Parser) : metric fm p.setSpindleMode = (metric fm p).setSpindleMode := by
  rw [setSpindleMode_eq, setSpindleMode_eq]
  refine metric_chain p _ _ (by decide) fun e he m => ?_
  simp only [spindleTable, List.mem_cons, List.not_mem_nil, or_false] at he
  rcases he with rfl | rfl | rfl <;> exact ⟨rfl, rfl⟩

theorem metric_override (p : Parser) : metric fm p.setOverrideMode = (metric fm p).setOverrideMode := by
  rw [setOverrideMode_eq, setOverrideMode_eq]
  refine metric_chain p _ _ (by decide) fun e he m => ?_
  simp only [overrideTable, List.mem_cons, List.not_mem_nil, or_false] at he
  rcases he with rfl | rfl <;> exact ⟨rfl, rfl⟩

theorem metric_coolant (p : Parser) : metric fm p.setCoolantMode = (metric fm p).setCoolantMode := by
  rw [setCoolantMode_eq, setCoolantMode_eq]
  rw [metric_chain _ _ _ (by simp), metric_chain _ _ _ (by simp), metric_chain _ _ _ (by simp)]
  all_goals
    intro e he m
    rw [List.mem_singleton] at he
    subst he
    exact ⟨rfl, rfl⟩

theorem metric_plane (p : Parser) : metric fm p.setArcPlane = (metric fm p).setArcPlane := by
  rw [setArcPlane_eq, setArcPlane_eq]
  refine metric_chain p _ _ (by decide) fun e he m => ?_
  simp only [planeTable, List.mem_cons, List.not_mem_nil, or_false] at he
  rcases he with rfl | rfl | rfl <;> exact ⟨rfl, rfl⟩

theorem metric_wcs (p : Parser) : metric fm p.setWCSMode = (metric fm p).setWCSMode := by
  rw [setWCSMode_eq, setWCSMode_eq]
  refine metric_chain p _ _ (by decide) fun e he m => ?_
  simp only [wcsTable, List.mem_cons, List.not_mem_nil, or_false] at he
  rcases he with rfl | rfl | rfl | rfl | rfl | rfl | rfl | rfl | rfl <;> exact ⟨rfl, rfl⟩

theorem metric_distance (p : Parser) : metric fm p.setDistanceMode = (metric fm p).setDistanceMode := by
  rw [setDistanceMode_eq, setDistanceMode_eq]
  refine metric_chain p _ _ (by decide) fun e he m => ?_
  simp only [distanceTable, List.mem_cons, List.not_mem_nil, or_false] at he
  rcases he with rfl | rfl <;> exact ⟨rfl, rfl⟩

theorem metric_units (p : Parser) (h : ¬ HasCode p.block.words 'G' 210) : metric fm p.setUnitsMode = (metric fm p).setUnitsMode := by
  unfold setUnitsMode apply2
  rw [metric_hasWords, metric_no200, metric_unit p h, search2_none.2 h]
  split_ifs
  · rcases p.block.search2 'G' 200 with _ | i
    · rfl
    · simp only [Option.map_none, Option.map_some]
      rw [← metric_remove]
      congr 1
  · rfl

theorem metric_changeData (p : Parser) : metric fm p.changeData = (metric fm p).changeData := by
  have hL : ∀ k, p.block.search2 'L' k = (metric fm p).block.search2 'L' k := by
    intro k
    unfold Block.search2 metric
    simp only [List.findIdx?_map]
    congr 1
    funext w
    simp only [Function.comp, metricWord_letter]
    rcases metricWord_int (fm := fm) w with h | ⟨h1, -⟩
    · rw [h]
    · have : decide (w.letter = 'L'.toNat) = false := by rw [h1.1]; decide
      rw [this, Bool.false_and, Bool.false_and]
  unfold changeData
  rw [metric_hasWords, metric_search2 p 'G' (by decide), metric_search, ← hL, ← hL]
  cases p.block.hasWords <;> rcases p.block.search2 'G' 100 with _ | i <;> rcases p.block.search2 'L' 20 with _ | j <;>
    rcases p.block.search2 'L' 200 with _ | k <;> rcases p.block.search 'P' with _ | n <;> rfl

/-! ## The motion -/

/-- The result of a call in millimetres. -/
def metricResult (fm : FeedMode) (r : Except Fault (Parser × SimplifiedMotion)) : Except Fault (Parser × SimplifiedMotion) :=
  r.map fun r => (metric fm r.1, r.2)

theorem metric_inMm (p : Parser) (h : p.state.modal.unit = .G20) {l : Letter} (hl : l ∈ [Letter.X, .Y, .Z, .I, .J, .K, .R]) :
    (metric fm p).inMm ((metric fm p).state.letterValue l) = p.inMm (p.state.letterValue l) := by
  unfold inMm
  rw [if_pos h, if_neg (by simp [metric, metricState])]
  revert hl
  cases l <;> first | (intro _; rfl) | (intro h; simp at h)

theorem metric_next (p : Parser) (h : p.state.modal.unit = .G20) (i : Nat) : (metric fm p).nextOf i = p.nextOf i := by
  unfold nextOf
  rw [metric_inMm p h (by unfold axisLetter; split <;> simp)]
  rfl

theorem metric_calcMotion (p : Parser) (m : SimplifiedMotion) (h : p.state.modal.unit = .G20) :
    (metric fm p).calcMotion m = metricResult fm (p.calcMotion m) := by
  have hn : (metric fm p).setNext = metric fm p.setNext := by
    unfold setNext
    simp only [metric_next p h]
    rfl
  unfold calcMotion
  rw [hn]
  have hu : p.setNext.state.modal.unit = .G20 := h
  generalize p.setNext = q at *
  simp only
  have hd : (metric fm q).setDelta m = q.setDelta m := rfl
  rw [hd]
  generalize q.setDelta m = m1
  have hx : (metric fm q).setArcAxis m1 = q.setArcAxis m1 := rfl
  rw [hx]
  generalize q.setArcAxis m1 = m2
  have hc : (metric fm q).calcArcCenter m2 = q.calcArcCenter m2 := by
    have o : ∀ a, (metric fm q).inMm ((metric fm q).state.letterValue (offsetLetter a)) = q.inMm (q.state.letterValue (offsetLetter a)) :=
      fun a => metric_inMm q hu (by unfold offsetLetter; split <;> simp)
    have r : (metric fm q).inMm ((metric fm q).state.letterValue .R) = q.inMm (q.state.letterValue .R) := metric_inMm q hu (by simp)
    unfold calcArcCenter centerFromOffsets centerFromRadius
    simp only [o, r]
    rfl
  rw [hc]
  rcases q.calcArcCenter m2 with e | m3
  · rfl
  · simp only
    have ha : (metric fm q).calcArcAngles m3 = q.calcArcAngles m3 := rfl
    rw [ha]
    generalize calcLength (q.calcArcAngles m3) = m4
    have hs : (metric fm q).calcSpeed m4 = q.calcSpeed m4 := by
      unfold calcSpeed
      have e : (if (metric fm q).state.modal.feedRate = .G93 then
          (m4.trajectory.length * num ((metric fm q).state.letterValue .F)) / Num.fin 60 else
          num ((metric fm q).inMm ((metric fm q).state.letterValue .F)) / Num.fin 60) =
        (if q.state.modal.feedRate = .G93 then (m4.trajectory.length * num (q.state.letterValue .F)) / Num.fin 60 else
          num (q.inMm (q.state.letterValue .F)) / Num.fin 60) := by
        show (if q.state.modal.feedRate = .G93 then _ else _) = _
        cases hf : q.state.modal.feedRate
        · rw [if_neg (by simp), if_neg (by simp)]
          unfold inMm
          rw [if_pos hu, if_neg (by simp [metric, metricState])]
          simp only [metric, metricState, metricValue, hf]
          rfl
        · rw [if_pos rfl, if_pos rfl]
          simp only [metric, metricState, metricValue, hf]
          rfl
      simp only [e]
      rfl
    rw [hs]
    rfl

theorem metric_moveThen (p : Parser) (m : SimplifiedMotion) (t : MotionType) (f g : Parser → Parser)
    (h : p.state.modal.unit = .G20) (hf : ∀ r, g (metric fm r) = metric fm (f r)) :
    (metric fm p).moveThen m t g = metricResult fm (p.moveThen m t f) := by
  unfold moveThen
  rw [metric_calcMotion p _ h]
  rcases p.calcMotion { m with type := t } with e | r
  · rfl
  · simp only [metricResult, Except.map, hf]

theorem metric_moveThen' (p r : Parser) (m : SimplifiedMotion) (t : MotionType) (f g : Parser → Parser)
    (hp : r = metric fm p) (h : p.state.modal.unit = .G20) (hf : ∀ r, g (metric fm r) = metric fm (f r)) :
    r.moveThen m t g = metricResult fm (p.moveThen m t f) := by
  rw [hp]; exact metric_moveThen p m t f g h hf

theorem metric_execute (p : Parser) (m : SimplifiedMotion) (h : p.state.modal.unit = .G20) :
    execute (metric fm p) m = metricResult fm (execute p m) := by
  have hmot : ∀ mo : MotionMode, (metric fm p).setModal { (metric fm p).state.modal with motion := mo } =
      metric fm (p.setModal { p.state.modal with motion := mo }) := fun mo => by rw [metric_setModal]; rfl; rfl
  unfold execute
  rw [metric_search2 p 'G' (by decide)]
  rcases p.block.search2 'G' 530 with _ | i
  · simp only
    unfold modalMove
    rw [metric_search2 p 'G' (by decide), metric_search2 p 'G' (by decide), metric_search2 p 'G' (by decide),
      metric_search2 p 'G' (by decide)]
    rcases p.block.search2 'G' 0 with _ | i
    · rcases p.block.search2 'G' 10 with _ | i
      · rcases p.block.search2 'G' 20 with _ | i
        · rcases p.block.search2 'G' 30 with _ | i
          · simp only
            have ha : (metric fm p).block.hasAxis = p.block.hasAxis := rfl
            rw [ha]
            cases p.block.hasAxis
            · rfl
            · simp only [if_true]
              exact metric_moveThen p m _ _ _ h fun _ => rfl
          · exact metric_moveThen' _ _ m _ _ _ (hmot .G3) h fun r => by
              show ((metric fm r).removeWord i).okMotion = _
              rw [metric_remove]; rfl
        · exact metric_moveThen' _ _ m _ _ _ (hmot .G2) h fun r => by
            show ((metric fm r).removeWord i).okMotion = _
            rw [metric_remove]; rfl
      · simp only
        have hF : 0 < ((metric fm p).setModal { (metric fm p).state.modal with motion := .G1 }).state.letterValue .F ↔
            0 < (p.setModal { p.state.modal with motion := .G1 }).state.letterValue .F := by
          simp only [setModal, metric, metricState, metricValue, inch]
          split_ifs
          · constructor <;> intro h <;> linarith
          · rfl
        by_cases hf : 0 < (p.setModal { p.state.modal with motion := .G1 }).state.letterValue .F
        · rw [if_pos hf, if_pos (hF.2 hf)]
          refine metric_moveThen' _ _ m _ _ _ (hmot .G1) h fun r => ?_
          rw [metric_remove]
          generalize r.removeWord i = q
          have e : (metric fm q).state.modal.feedRate = q.state.modal.feedRate := rfl
          simp only [e]
          by_cases h93 : q.state.modal.feedRate = .G93
          · simp only [h93, if_true]
            show _ = okMotion (metric fm (q.setLetter .F 0))
            rw [metric_setLetter]
            simp [metricValue]
          · simp only [h93, if_false]
            rfl
        · rw [if_neg hf, if_neg fun h => hf (hF.1 h)]
          rw [hmot]
          rfl
    · exact metric_moveThen' _ _ m _ _ _ (hmot .G0) h fun r => by
        show ((metric fm r).okMotion).removeWord i = _
        exact metric_remove r.okMotion i
  · simp only
    have hmac : (metric fm p).machineMove m i = metricResult fm (p.machineMove m i) := by
      have hset : (metric fm p).setModal { (metric fm p).state.modal with coordinateSet := .G53 } =
          metric fm (p.setModal { p.state.modal with coordinateSet := .G53 }) := by rw [metric_setModal]; rfl; rfl
      have hres : ∀ r : Parser, ((metric fm r).removeWord i).setModal
            { (metric fm r).state.modal with coordinateSet := (metric fm p).state.modal.coordinateSet } =
          metric fm ((r.removeWord i).setModal { r.state.modal with coordinateSet := p.state.modal.coordinateSet }) := by
        intro r
        rw [metric_setModal _ _ (by rfl), metric_remove]
        rfl
      unfold machineMove
      rw [hset]
      simp only
      rw [metric_search2 _ 'G' (by decide), metric_search2 _ 'G' (by decide)]
      rcases (p.setModal { p.state.modal with coordinateSet := .G53 }).block.search2 'G' 0 with _ | j
      · rcases (p.setModal { p.state.modal with coordinateSet := .G53 }).block.search2 'G' 10 with _ | j
        · exact metric_moveThen _ m _ _ _ h hres
        · refine metric_moveThen _ m _ _ _ h fun r => ?_
          rw [metric_remove]; exact hres _
      · refine metric_moveThen _ m _ _ _ h fun r => ?_
        rw [metric_remove]; exact hres _
    rw [hmac]
    rcases p.machineMove m i with e | r <;> rfl

theorem metric_settings1 (p : Parser)
    (hf : p.getAxisOffsetRadiusWords.getLineNumberWord.setFeedrateMode.state.modal.feedRate = fm) :
    metric fm p.settings1 = (metric fm p).settings1 := by
  unfold settings1
  rw [metric_override, metric_coolant, metric_spindle, metric_speed, metric_feed _ hf, metric_feedMode, metric_line,
    metric_axisWords]

theorem metric_settings2 (p : Parser) (h : ¬ HasCode p.block.words 'G' 210) :
    metric fm p.settings2 = (metric fm p).settings2 := by
  unfold settings2
  rw [metric_distance, metric_wcs, metric_units, metric_plane]
  rintro ⟨w, hw, hc⟩
  rw [setArcPlane_eq] at hw
  exact h ⟨w, (chain_spec p 'G' planeTable).1.sub hw, hc⟩

/-- Interpreting a block in inches and in millimetres. -/
theorem metric_parse {p : Parser} {m : SimplifiedMotion} (hr : Shows p.block p.block.words) (h21 : ¬ HasCode p.block.words 'G' 210)
    (hu : p.state.modal.unit = .G20 ∨ (HasCode p.block.words 'G' 200 ∧ ¬ IsDwell p.block.words))
    (hf : SetBy feedGroup p.block.words p.state.modal.feedRate fm) :
    (metric fm p).parseBlock m = metricResult fm (p.parseBlock m) := by
  have hcount1 : (metric fm p).block.hasModalGroupViolation = p.block.hasModalGroupViolation := rfl
  have hcount2 : (metric fm p).block.hasLetterWordViolation = p.block.hasLetterWordViolation := rfl
  unfold parseBlock
  simp only
  rw [hcount1, hcount2]
  cases hv1 : p.block.hasModalGroupViolation
  swap
  · rfl
  cases hv2 : p.block.hasLetterWordViolation
  swap
  · rfl
  simp only [Bool.false_eq_true, if_false]
  set p0 : Parser := { p with result := .emptyBlock, error := .none } with hp0
  have e0 : ({ metric fm p with result := .emptyBlock, error := .none } : Parser) = metric fm p0 := rfl
  rw [e0]
  have hmode : p0.getAxisOffsetRadiusWords.getLineNumberWord.setFeedrateMode.state.modal.feedRate = fm := by
    have hs : Shows p0.block p0.block.words := hr
    obtain ⟨k1, m1, -, -⟩ := getWords_spec [Letter.X, .Y, .Z, .I, .J, .K, .R] (by decide) p0
    rw [← getAxisOffsetRadiusWords_eq p0 hs] at k1 m1
    generalize p0.getAxisOffsetRadiusWords = q1 at *
    obtain ⟨k2, m2, -⟩ := getLineNumberWord_spec q1
    generalize q1.getLineNumberWord = q2 at *
    rw [(setFeedrateMode_spec q2).2]
    have c : ∀ k, HasCode q2.block.words 'G' k ↔ HasCode p.block.words 'G' k := by
      intro k
      rw [k2.hasCode fun w hw hc => by
        have := hc.1
        unfold WithLetter at hw
        rw [hw] at this
        revert this; decide]
      refine (k1.hasCode fun w hw hc => ?_).trans Iff.rfl
      obtain ⟨l, h1, h2⟩ := hw
      unfold WithLetter at h2
      rw [hc.1] at h2
      revert h1 h2
      cases l <;> decide
    simp only [c]
    have hm : q2.state.modal.feedRate = p.state.modal.feedRate := by rw [m2, m1]
    split_ifs with h1 h2
    · exact (hf.named ('G', 930, .G93) (by decide) h1).symm
    · exact (hf.named ('G', 940, .G94) (by decide) h2).symm
    · rw [hm]
      refine (hf.kept fun e he => ?_).symm
      simp only [feedGroup, List.mem_cons, List.not_mem_nil, or_false] at he
      rcases he with rfl | rfl
      · exact h1
      · exact h2
  rw [← metric_settings1 p0 hmode]
  have k1 : Keeps Kind1 p0 p0.settings1 := settings1_keeps p0
  have hunit1 : p0.settings1.state.modal.unit = p.state.modal.unit := by
    have hs : Shows p0.block p0.block.words := hr
    rw [(settings1_spec p0 hs).2.modal]
  generalize p0.settings1 = q1 at *
  have hdw : (IsDwell q1.block.words → p.state.modal.unit = .G20) := by
    rintro ⟨h1, x, hx, w, hw, hv⟩
    rcases hu with hu | ⟨-, hu⟩
    · exact hu
    · exact absurd ⟨(k1.hasCode fun w hw => kind1_not hw).1 h1, x, hx, w, k1.sub hw, hv⟩ hu
  have key : (∃ r, q1.dwell { m with type := .none } = .inl r ∧
        (metric fm q1).dwell { m with type := .none } = .inl (metricResult fm r)) ∨
      (∃ q, q1.dwell { m with type := .none } = .inr q ∧ q.block = q1.block ∧ q.state = q1.state ∧
        (metric fm q1).dwell { m with type := .none } = .inr (metric fm q)) := by
    unfold dwell
    rw [metric_hasWords, metric_search2 q1 'G' (by decide), metric_search]
    cases q1.block.hasWords
    · exact .inr ⟨q1, rfl, rfl, rfl, rfl⟩
    · simp only [if_true]
      rcases hg : q1.block.search2 'G' 40 with _ | i
      · exact .inr ⟨q1, rfl, rfl, rfl, rfl⟩
      · rcases hP : q1.block.search 'P' with _ | j
        · exact .inr ⟨_, rfl, rfl, rfl, rfl⟩
        · simp only
          have e : (metric fm q1).block.number j = q1.block.number j := metric_value (fm := fm) q1 (l := .P) (by simp) hP
          rw [e]
          by_cases h0 : 0 ≤ q1.block.number j
          · rw [if_pos h0, if_pos h0]
            refine .inl ⟨_, rfl, ?_⟩
            congr 1
            refine metric_moveThen' _ _ _ _ _ _ ?_ ?_ fun r => ?_
            · have e3 : (metric fm q1).setLetter .P (q1.block.number j) = metric fm (q1.setLetter .P (q1.block.number j)) :=
                (metric_setLetter q1 .P _).symm
              rw [e3]; rfl
            · show q1.state.modal.unit = .G20
              rw [hunit1]
              obtain ⟨w, h1, h2, h3⟩ := search_some hP
              exact hdw ⟨(search2_some hg).1, _, h0, by rw [h2]; exact hasVal_of_perm h1 h3⟩
            · rw [metric_remove, metric_remove]
          · rw [if_neg h0, if_neg h0]
            exact .inr ⟨_, rfl, rfl, rfl, rfl⟩
  rcases key with ⟨r, e1, e2⟩ | ⟨q, e1, hb, hs, e2⟩
  · rw [e1, e2]
  · rw [e1, e2]
    simp only
    have hsub : ∀ k, HasCode q.block.words 'G' k ↔ HasCode p.block.words 'G' k := by
      intro k
      rw [hb]
      exact k1.hasCode fun w hw => kind1_not hw
    have hnext : (metric fm q).settings2.changeData = metric fm q.settings2.changeData := by
      rw [← metric_settings2 q (fun h => h21 ((hsub 210).1 h)), metric_changeData]
    rw [hnext]
    have hG20 : q.settings2.changeData.state.modal.unit = .G20 := by
      rw [(changeData_spec _).2, (settings2_spec q).2]
      simp only
      by_cases h200 : HasCode q.block.words 'G' 200
      · simp [pick, unitModes, h200]
      · have hn : ¬ HasCode q.block.words 'G' 210 := fun h => h21 ((hsub 210).1 h)
        simp only [pick, unitModes, h200, hn, if_false]
        rw [hs, hunit1]
        rcases hu with hu | ⟨hu, -⟩
        · exact hu
        · exact absurd ((hsub 200).2 hu) h200
    have := metric_execute (fm := fm) q.settings2.changeData { m with type := .none } hG20
    unfold execute at this
    generalize q.settings2.changeData = q' at *
    revert this
    rcases (metric fm q').block.search2 'G' 530 with _ | i <;> rcases q'.block.search2 'G' 530 with _ | j <;> exact fun h => h

theorem ofWords_map {f : Word → Word} (h1 : ∀ w, letterOf (f w) = letterOf w) (h2 : ∀ w, Block.groupsOf (f w) = Block.groupsOf w)
    (ws : List Word) : ({ ofWords ws with words := ws.map f } : Block) = ofWords (ws.map f) := by
  have key : ∀ (ws : List Word) (b b' : Block), b' = { b with words := b'.words } →
      (ws.map f).foldl addWord b' = { ws.foldl addWord b with words := b'.words ++ ws.map f } := by
    intro ws
    induction ws with
    | nil => intro b b' h; simpa using h
    | cons w ws ih =>
      intro b b' h
      rw [List.map_cons, List.foldl_cons, List.foldl_cons, ih (addWord b w)]
      · simp [addWord]
      · have l := h1 w
        unfold letterOf at l
        conv_lhs => rw [h]
        unfold addWord Block.countWord
        simp only [h2, l]
  have := key ws .empty .empty rfl
  unfold ofWords
  rw [this]
  simp [Block.empty]

theorem metricWord_groups (w : Word) : Block.groupsOf (metricWord fm w) = Block.groupsOf w := by
  rcases metricWord_int (fm := fm) w with h | ⟨h1, h2⟩
  · unfold Block.groupsOf; rw [h, metricWord_letter]
  · unfold Block.groupsOf; rw [h2, metricWord_letter, h1.1, h1.2]; rfl

theorem metric_block (p : Parser) (ws : List Word) :
    metric fm { p with block := ofWords ws } = { p with block := ofWords (ws.map (metricWord fm)), state := metricState p.state } := by
  rw [← ofWords_map (fun w => by unfold letterOf; rw [metricWord_letter]) metricWord_groups]
  unfold metric
  simp [ofWords_words]

end Moovr.GCode
