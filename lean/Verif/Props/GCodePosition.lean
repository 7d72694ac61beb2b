import Verif.Lemmas.Num
import Verif.Props.GCodeModal
/-!
# Properties of the positions of G-code motions (C47, C48, C65)
-/
namespace Moovr.Props
open GCode GCode.Parser

/-! ## C47 -/

theorem num_add (x y : ℚ) : num x + num y = num (x + y) := by
  unfold num
  rw [Num.fin_add]
  push_cast
  rfl

/-- **C47**, partial: in every execution (lines read and `parseBlock` called any number of times, from any state), the motions
handed to the motion controller connect the initial to the final position, each one starting where the one before ended; in
particular calls without a motion do not change the position. Missing: blocks with G53 (their motion is not reported) and dwells
that change the position (`motions_connect_violated`). -/
theorem motions_connect_partial {p₀ p : Parser} {m₀ m : SimplifiedMotion} {log} (h : Run p₀ m₀ log p m)
    (hl : ∀ e ∈ log, ¬ HasCode e.1.block.words 'G' 530 ∧
      (HasCode e.1.block.words 'G' 40 → e.2.1.state.currentPosition = e.1.state.currentPosition)) :
    Connected (fun i => num (p₀.state.currentPosition i)) (handed log) (fun i => num (p.state.currentPosition i)) := by
  induction h with
  | start => exact fun i _ => rfl
  | line t _ hb ih =>
    rw [(getBlock_ok hb).2]
    exact ih hl
  | @parse log p m p' m' _ hp ih =>
    have ih' := ih fun e he => hl e (List.mem_append_left _ he)
    obtain ⟨h53, h4⟩ := hl (p, p', m') (by simp)
    rcases parse_position hp with ⟨e, hn⟩ | ⟨hm, ht⟩
    · have : handed (log ++ [(p, p', m')]) = handed log := by
        unfold handed
        rw [List.filter_append, List.filter_cons_of_neg (by simpa using hn)]
        simp
      rw [this, e]
      exact ih'
    · have hrep : Reported p'.result := by
        rcases ht with ⟨-, h | h⟩ | ⟨-, h, -⟩
        · exact absurd h h53
        · exact h
        · exact h
      have : handed (log ++ [(p, p', m')]) = handed log ++ [m'] := by
        unfold handed
        rw [List.filter_append, List.map_append, List.filter_cons_of_pos (by simpa using hrep)]
        simp
      rw [this]
      refine connected_append ih' (fun i hi => (hm i hi).1) (fun i hi => ?_)
      unfold endOf
      rcases ht with ⟨ht, -⟩ | ⟨ht, -, h40⟩
      · rw [if_pos ht, (hm i hi).1, (hm i hi).2, num_add]
        congr 1; ring
      · rw [if_neg (by rw [ht]; decide), (hm i hi).1]
        have := h4 h40
        simp only at this
        rw [this]

theorem noCollision_counts {p p' : Parser} {m m' : SimplifiedMotion} (hr : Rest p) (h : p.parseBlock m = .ok (p', m'))
    (h1 : p.block.hasModalGroupViolation = false) (h2 : p.block.hasLetterWordViolation = false) : NoCollision p'.error := by
  by_cases hd : IsDwell p.block.words
  · obtain ⟨q, x, i, j, hk, hne, hq, hx, hv, -, -, e'⟩ := parse_dwell m hr rfl h1 h2 hd
    rw [h] at e'
    obtain ⟨r, e'', -, -, he, -, -⟩ := moveThen_ok e'.symm
    rw [e'']
    show NoCollision r.error
    rw [he]; exact hne
  · obtain ⟨q, -, -, e'⟩ := parse_ready hr rfl h1 h2 hd m
    rw [h] at e'
    rcases execute_cases e'.symm with ⟨_, _, _, _, _, _, r, _⟩ | ⟨k, mode, _, _, _, _, _, _, _, r, _⟩ |
      ⟨_, _, _, _, _, _, r, _⟩ | ⟨_, _, _, _, _, _, r, _⟩ | ⟨_, _, _, _, _, _, r, _⟩ <;> rw [r] <;> exact ⟨by simp, by simp⟩

/-- Reading a line and interpreting it. -/
theorem runs_line (p : Parser) {t : String} {ws : List Word} (ht : (Block.ofString (codes t)).map (·.words) = .ok ws)
    (h1 : (ofWords ws).hasModalGroupViolation = false) (h2 : (ofWords ws).hasLetterWordViolation = false)
    (hl : ∀ l ∈ ['I', 'J', 'K', 'R'], ¬ HasLetter ws l) (m : SimplifiedMotion) :
    ∃ p1 p' m', p.getBlock (codes t) = .ok p1 ∧ p1.block.words = ws ∧ p1.state = p.state ∧ Read p1 ∧
      p1.parseBlock m = .ok (p', m') ∧ NoCollision p'.error := by
  have hb := line ht
  have hg : p.getBlock (codes t) = .ok { p with block := ofWords ws } := by
    unfold getBlock; rw [hb]; rfl
  have hr : Read ({ p with block := ofWords ws } : Parser) := ⟨_, hb⟩
  obtain ⟨p', m', e⟩ := parse_total m (ws := ws) hr rfl hl
  refine ⟨_, p', m', hg, ofWords_words ws, rfl, hr, e, ?_⟩
  exact noCollision_counts hr.rest e h1 h2

/-! ## The position after a motion -/

/-- A movement did not collide, and is no dwell. -/
theorem moved_no {p p' : Parser} {m m' : SimplifiedMotion} (hr : Rest p) (h : p.parseBlock m = .ok (p', m'))
    (hm : Moved p' m') : NoCollision p'.error ∧ ¬ IsDwell p.block.words := by
  have hc := noCollision_of hr h hm.1
  refine ⟨hc, fun hd => ?_⟩
  have := ((dwell_partial hr h hc).1 hd).1
  have hm2 := hm.2
  rw [this] at hm2
  exact absurd hm2 (by decide)

theorem charOf_axis {i : Nat} (hi : i < 3) : charOf (axisLetter i) = axisChar i := by
  interval_cases i <;> rfl

theorem axis_mem {i : Nat} (hi : i < 3) : axisLetter i ∈ [Letter.X, .Y, .Z, .I, .J, .K, .R] := by
  interval_cases i <;> decide

theorem axis_ne {i : Nat} {l : Letter} (hi : i < 3) (hl : l = .F ∨ l = .P) : axisLetter i ≠ l := by
  rcases hl with rfl | rfl <;> interval_cases i <;> decide

/-- The position after a movement, and the coordinates it is calculated from. -/
theorem moved_axis {p p' : Parser} {m m' : SimplifiedMotion} (hr : Rest p) (h : p.parseBlock m = .ok (p', m'))
    (hm : Moved p' m') {i : Nat} (hi : i < 3) :
    p'.state.currentPosition i = p.state.wcsOrigin (if HasCode p.block.words 'G' 530 then .G53 else p'.state.modal.coordinateSet) i +
        ((if p'.state.modal.distance = .G91 then p.state.currentPosition i else 0) +
          mm p'.state.modal.unit (p'.state.letterValue (axisLetter i))) ∧
    (∀ x, HasVal p.block.words (axisChar i) x → p'.state.letterValue (axisLetter i) = x) ∧
    (¬ HasLetter p.block.words (axisChar i) → p'.state.letterValue (axisLetter i) = p.state.letterValue (axisLetter i)) := by
  obtain ⟨hc, hd⟩ := moved_no hr h hm
  obtain ⟨q, hk, hq, hx⟩ := parse_ok hr h hc hd
  have h53 := keeps_codes (k := 530) hk (by decide)
  have hmod := exec_modal hx
  have hnF := axis_ne hi (l := .F) (.inl rfl)
  have hlet : p'.state.letterValue (axisLetter i) = q.state.letterValue (axisLetter i) := by
    rcases hx with ⟨_, _, _, s, _⟩ | ⟨k, mode, _, _, _, _, s, _⟩ | ⟨_, _, _, s, _⟩ | ⟨_, _, _, s, _⟩ | ⟨_, _, _, s, _⟩ <;> rw [s]
    · rfl
    · simp [hnF]
    · rfl
  have hv2 := hr.letters (parse_noViolation h hc).2
  have hreads := hq.letters (axisLetter i) (axis_mem hi)
  unfold Reads at hreads
  rw [← hlet, charOf_axis hi] at hreads
  refine ⟨?_, fun x hx' => ?_, fun hn => ?_⟩
  · have nxt : ∀ c, (q.setModal { q.state.modal with coordinateSet := c }).nextOf i = p.state.wcsOrigin c i +
        ((if p'.state.modal.distance = .G91 then p.state.currentPosition i else 0) +
          mm p'.state.modal.unit (p'.state.letterValue (axisLetter i))) := by
      intro c
      have e1 : p'.state.modal.distance = q.state.modal.distance := by rw [hmod]
      have e2 : p'.state.modal.unit = q.state.modal.unit := by rw [hmod]
      rw [hlet, e1, e2]
      unfold nextOf inMm mm inches2mm
      simp only [setModal, hk.origin, hk.position]
      by_cases hdis : q.state.modal.distance = .G91
      · simp only [hdis, if_true]
      · simp only [hdis, if_false, zero_add]
    have same : q.nextOf i = (q.setModal { q.state.modal with coordinateSet := q.state.modal.coordinateSet }).nextOf i := rfl
    have hcs : p'.state.modal.coordinateSet = q.state.modal.coordinateSet := by rw [hmod]
    rcases hx with ⟨_, c, _, s, _⟩ | ⟨k, mode, _, n, _, _, s, _⟩ | ⟨_, _, _, _, _, r, _⟩ | ⟨n, _, _, s, _⟩ | ⟨_, _, _, _, mo, _⟩
    · rw [if_pos (h53.1 c), ← nxt, s]
      exact if_pos hi
    · rw [if_neg (fun h => n (h53.2 h)), hcs, ← nxt, ← same, s]
      exact if_pos hi
    · exact absurd r hm.1
    · rw [if_neg (fun h => n (h53.2 h)), hcs, ← nxt, ← same, s]
      exact if_pos hi
    · have := hm.2
      rw [mo] at this
      exact absurd this (by simp [MotionType.moves])
  · obtain ⟨w, hw, h1, h2⟩ := hx'
    have := hreads.1 ⟨w, hw, h1⟩
    rw [← charOf_axis hi] at this h1
    exact val_unique hv2 (by interval_cases i <;> decide) this ⟨w, hw, h1, h2⟩
  · exact hreads.2 hn

/-! ## C65 -/

/-- **C65**: in absolute mode a movement ends, for every axis with a word, at the programmed coordinate plus the origin of the
selected work coordinate set; with G53 at the programmed coordinate plus the machine origin (which is zero in every execution from
reset, `machine_origin`), and the selected set is not changed by G53: it is the one named in the block by G54-G59.3, otherwise the
one before (if the block has no two of these words, see C45). For all states. -/
theorem work_coordinates {p p' : Parser} {m m' : SimplifiedMotion} (hr : Rest p) (h : p.parseBlock m = .ok (p', m'))
    (hm : Moved p' m') :
    (p'.state.modal.distance = .G90 → ∀ i x, i < 3 → HasVal p.block.words (axisChar i) x →
      (¬ HasCode p.block.words 'G' 530 → p'.state.currentPosition i =
        x * (if p'.state.modal.unit = .G20 then 254 / 10 else 1) + p.state.wcsOrigin p'.state.modal.coordinateSet i) ∧
      (HasCode p.block.words 'G' 530 → p'.state.currentPosition i =
        x * (if p'.state.modal.unit = .G20 then 254 / 10 else 1) + p.state.wcsOrigin .G53 i)) ∧
    (¬ Twice (InGroup coordGroup) p.block.words →
      SetBy coordGroup p.block.words p.state.modal.coordinateSet p'.state.modal.coordinateSet) ∧
    p'.state.wcsOrigin = p.state.wcsOrigin := by
  obtain ⟨hc, hd⟩ := moved_no hr h hm
  refine ⟨fun h90 i x hi hx => ?_, (modal_settings_partial hr h hc hd).2.1.coord, parse_origin h⟩
  obtain ⟨h1, h2, -⟩ := moved_axis hr h hm hi
  rw [h2 x hx, h90] at h1
  have hu : mm p'.state.modal.unit x = x * (if p'.state.modal.unit = .G20 then 254 / 10 else 1) := by
    unfold mm; split_ifs <;> ring
  refine ⟨fun h53 => ?_, fun h53 => ?_⟩
  · rw [h1, if_neg h53, hu]; simp; ring
  · rw [h1, if_pos h53, hu]; simp; ring

/-- In every execution from reset all origins are zero. -/
theorem machine_origin {m₀ m : SimplifiedMotion} {p : Parser} {log} (h : Run .reset m₀ log p m) :
    p.state.wcsOrigin = fun _ _ => 0 := (run_rest h).1.2

/-- "G55 G0 X2" in a state with an origin, and "G53 G0 X2". -/
example {s : State} {p' : Parser} {m m' : SimplifiedMotion} (h0 : s.wcsOrigin .G55 0 = 10) (hs : s.modal = State.initial.modal)
    (h : (withLine s [⟨71, 55, 550⟩, ⟨71, 0, 0⟩, ⟨88, 2, 0⟩]).parseBlock m = .ok (p', m')) (hm : Moved p' m') :
    p'.state.currentPosition 0 = 12 := by
  have hr : Read (withLine s [⟨71, 55, 550⟩, ⟨71, 0, 0⟩, ⟨88, 2, 0⟩]) := ⟨codes "G55 G0 X2", line (by decide +kernel)⟩
  have hw : (withLine s [⟨71, 55, 550⟩, ⟨71, 0, 0⟩, ⟨88, 2, 0⟩]).block.words = [⟨71, 55, 550⟩, ⟨71, 0, 0⟩, ⟨88, 2, 0⟩] := ofWords_words _
  obtain ⟨hc, hd⟩ := moved_no hr.rest h hm
  obtain ⟨-, h2, -⟩ := modal_settings_partial hr.rest h hc hd
  obtain ⟨h3, -, -⟩ := work_coordinates hr.rest h hm
  rw [hw] at h2 h3
  have e1 : p'.state.modal.distance = .G90 := by
    rw [h2.distance.kept (by decide +kernel)]
    show s.modal.distance = _
    rw [hs]; rfl
  have e2 : p'.state.modal.unit = .G21 := by
    rw [h2.unit.kept (by decide +kernel)]
    show s.modal.unit = _
    rw [hs]; rfl
  have e3 : p'.state.modal.coordinateSet = .G55 := by
    exact (h2.coord (by decide +kernel)).named ('G', 550, .G55) (by decide) (by decide +kernel)
  have := (h3 e1 0 2 (by decide) (by decide +kernel)).1 (by decide +kernel)
  rw [e2, e3, if_neg (by decide)] at this
  rw [this]
  show 2 * 1 + s.wcsOrigin .G55 0 = _
  rw [h0]; norm_num

/-! ## C47: example and counterexample -/

/-- A block with G0 moves. -/
theorem moved_of {p p' : Parser} {m m' : SimplifiedMotion} (hr : Rest p) (h : p.parseBlock m = .ok (p', m'))
    (he : NoCollision p'.error) (hd : ¬ IsDwell p.block.words) (c0 : HasCode p.block.words 'G' 0)
    (hn : ∀ k ∈ [10, 20, 30, 530], ¬ HasCode p.block.words 'G' k) : Moved p' m' ∧ Reported p'.result := by
  obtain ⟨h1, h2⟩ := traverse_of hr h he hd c0 hn
  unfold Moved Reported
  rw [h1, h2]
  exact ⟨⟨by decide, rfl⟩, .inl rfl⟩

/-- Two lines, two motions. -/
example : ∃ log p m, Run .reset (.fresh 3) log p m ∧ (handed log).length = 2 ∧
    Connected (fun _ => num 0) (handed log) (fun i => num (p.state.currentPosition i)) := by
  obtain ⟨p1, p2, m2, g1, w1, s1, r1, e1, c1⟩ := runs_line .reset (t := "G0 X1") (ws := [⟨71, 0, 0⟩, ⟨88, 1, 0⟩])
    (by decide +kernel) (by decide +kernel) (by decide +kernel) (by decide +kernel) (.fresh 3)
  obtain ⟨p3, p4, m4, g2, w2, s2, r2, e2, c2⟩ := runs_line p2 (t := "G0 Y2") (ws := [⟨71, 0, 0⟩, ⟨89, 2, 0⟩])
    (by decide +kernel) (by decide +kernel) (by decide +kernel) (by decide +kernel) m2
  have h := (((Run.start.line _ g1).parse e1).line _ g2).parse e2
  refine ⟨_, _, _, h, ?_, ?_⟩
  · have t1 := (moved_of r1.rest e1 c1 (by rw [w1]; decide +kernel) (by rw [w1]; decide +kernel) (by rw [w1]; decide +kernel)).2
    have t2 := (moved_of r2.rest e2 c2 (by rw [w2]; decide +kernel) (by rw [w2]; decide +kernel) (by rw [w2]; decide +kernel)).2
    simp [handed, t1, t2]
  · refine motions_connect_partial h fun e he => ?_
    simp only [List.nil_append, List.cons_append, List.mem_cons, List.not_mem_nil, or_false] at he
    rcases he with rfl | rfl
    · refine ⟨by rw [w1]; decide +kernel, fun hc => absurd hc (by rw [w1]; decide +kernel)⟩
    · refine ⟨by rw [w2]; decide +kernel, fun hc => absurd hc (by rw [w2]; decide +kernel)⟩

/-- Counterexamples to **C47**: after "G4 P1 X5" (a pause at X0) the motion of "G0 X6" starts at X5; after "G53 G0 X1" the
position is X1, but no motion was reported. -/
theorem motions_connect_violated :
    (∃ log p m, Run .reset (.fresh 3) log p m ∧ (handed log).map (·.type) = [.pauseAndResume, .traverse] ∧
      (handed log).map (fun m => m.trajectory.startPosition 0) = [num 0, num 5] ∧
      ¬ Connected (fun _ => num 0) (handed log) (fun i => num (p.state.currentPosition i))) ∧
    (∃ log p m, Run .reset (.fresh 3) log p m ∧ handed log = [] ∧ p.state.currentPosition 0 = 1) := by
  constructor
  · obtain ⟨p1, p2, m2, g1, w1, s1, r1, e1, c1⟩ := runs_line .reset (t := "G4 P1 X5") (ws := [⟨71, 4, 40⟩, ⟨80, 1, 0⟩, ⟨88, 5, 0⟩])
      (by decide +kernel) (by decide +kernel) (by decide +kernel) (by decide +kernel) (.fresh 3)
    obtain ⟨p3, p4, m4, g2, w2, s2, r2, e2, c2⟩ := runs_line p2 (t := "G0 X6") (ws := [⟨71, 0, 0⟩, ⟨88, 6, 0⟩])
      (by decide +kernel) (by decide +kernel) (by decide +kernel) (by decide +kernel) m2
    have h := (((Run.start.line _ g1).parse e1).line _ g2).parse e2
    have d1 := (dwell_partial r1.rest e1 c1).1 (by rw [w1]; decide +kernel)
    have t1 : Reported p2.result := .inl d1.2.2.2.1
    have y2 := traverse_of r2.rest e2 c2 (by rw [w2]; decide +kernel) (by rw [w2]; decide +kernel) (by rw [w2]; decide +kernel)
    have t2 : Reported p4.result := .inl y2.2
    have hpos : p2.state.currentPosition 0 = 5 := by
      obtain ⟨q, x, hk, hq, hx, hv, hs, -⟩ := dwell_state r1.rest e1 c1 (by rw [w1]; decide +kernel)
      have hX : q.state.letterValue .X = 5 := by
        have := (hq.letters .X (by decide)).1 (by rw [w1]; decide +kernel)
        rw [w1] at this
        exact val_unique (l := .X) (by decide +kernel) (by simp) this (by decide +kernel)
      have hP : (q.setLetter .P x).state.letterValue (axisLetter 0) = 5 := (setLetter_other (by decide)).trans hX
      have hmod : (q.setLetter .P x).state.modal = q.state.modal := rfl
      have ho : (q.setLetter .P x).state.wcsOrigin = State.initial.wcsOrigin := by
        show q.state.wcsOrigin = _
        rw [hk.origin, s1]; rfl
      rw [hs]
      show (if (0 : Nat) < 3 then (q.setLetter .P x).nextOf 0 else (q.setLetter .P x).state.currentPosition 0) = _
      rw [if_pos (by decide)]
      unfold nextOf inMm
      simp only [hP, hmod, ho, hq.modal, s1]
      show (0 : ℚ) + 5 = 5
      norm_num
    have hs1 : m2.trajectory.startPosition 0 = num 0 := by
      rcases parse_position e1 with ⟨-, hn⟩ | ⟨hm, -⟩
      · exact absurd t1 hn
      · rw [(hm 0 (by decide)).1, s1]; rfl
    have hs2 : m4.trajectory.startPosition 0 = num 5 := by
      rcases parse_position e2 with ⟨-, hn⟩ | ⟨hm, -⟩
      · exact absurd t2 hn
      · rw [(hm 0 (by decide)).1, s2, hpos]
    have hh : handed ([] ++ [(p1, p2, m2)] ++ [(p3, p4, m4)]) = [m2, m4] := by simp [handed, t1, t2]
    refine ⟨_, _, _, h, ?_, ?_, ?_⟩
    · rw [hh]; simp [d1.1, y2.1]
    · rw [hh]; simp [hs1, hs2]
    · rw [hh]
      rintro ⟨-, h2, -⟩
      have := h2 0 (by decide)
      rw [hs2] at this
      unfold endOf at this
      rw [if_neg (by rw [d1.1]; decide), hs1] at this
      unfold num at this
      have := Num.fin_injective this
      norm_num at this
  · obtain ⟨p1, p2, m2, g1, w1, s1, r1, e1, c1⟩ := runs_line .reset (t := "G53 G0 X1") (ws := [⟨71, 53, 530⟩, ⟨71, 0, 0⟩, ⟨88, 1, 0⟩])
      (by decide +kernel) (by decide +kernel) (by decide +kernel) (by decide +kernel) (.fresh 3)
    have h := (Run.start.line _ g1).parse e1
    obtain ⟨q, hk, hq, hx⟩ := parse_ok r1.rest e1 c1 (by rw [w1]; decide +kernel)
    have hc : HasCode q.block.words 'G' 530 := (keeps_codes hk (by decide)).2 (by rw [w1]; decide +kernel)
    have key : Moved p2 m2 ∧ p2.result = .okContextUpdateOnly := by
      rcases hx with ⟨t, c, ht, s, mo, r, _⟩ | ⟨k, mode, _, n, _⟩ | ⟨n, _⟩ | ⟨n, _⟩ | ⟨n, _⟩
      · refine ⟨⟨by rw [r]; decide, ?_⟩, r⟩
        rw [mo.type]
        rcases ht with ⟨-, rfl⟩ | ⟨-, rfl⟩ <;> rfl
      all_goals exact absurd hc n
    refine ⟨_, _, _, h, ?_, ?_⟩
    · have : ¬ Reported p2.result := by rw [key.2]; decide
      simp [handed, this]
    · obtain ⟨a1, a2, -⟩ := moved_axis r1.rest e1 key.1 (i := 0) (by decide)
      obtain ⟨-, h2, -⟩ := modal_settings_partial r1.rest e1 c1 (by rw [w1]; decide +kernel)
      rw [w1] at h2
      rw [a1, a2 1 (by rw [w1]; decide +kernel), h2.unit.kept (by decide +kernel), h2.distance.kept (by decide +kernel), s1]
      show (0 : ℚ) + (0 + 1) = 1
      norm_num

/-! ## C48 -/

/-- **C48**, partial (axes with a word): in every execution from reset, a movement ends, for each axis with a word, at the
programmed coordinate in absolute mode, and at the programmed distance from the position before in incremental mode (in mm or
inches). Missing: the axes without a word, `unmentioned_axes_partial`. -/
theorem mentioned_axes_partial {m₀ m : SimplifiedMotion} {p : Parser} {log} (h : Run .reset m₀ log p m) :
    ∀ e ∈ log, Moved e.2.1 e.2.2 → ∀ i x, i < 3 → HasVal e.1.block.words (axisChar i) x →
      (e.2.1.state.modal.distance = .G90 → e.2.1.state.currentPosition i = mm e.2.1.state.modal.unit x) ∧
      (e.2.1.state.modal.distance = .G91 →
        e.2.1.state.currentPosition i = e.1.state.currentPosition i + mm e.2.1.state.modal.unit x) := by
  intro e he hm i x hi hx
  obtain ⟨hr, ho, m, hp⟩ := (run_rest h).2 e he
  obtain ⟨h1, h2, -⟩ := moved_axis hr hp hm hi
  rw [h2 x hx, ho] at h1
  refine ⟨fun hd => ?_, fun hd => ?_⟩
  · rw [h1, hd]; simp
  · rw [h1, hd]; simp

/-- The coordinates of the last words are those of the position. -/
def Agrees (s : State) : Prop := ∀ i, i < 3 → s.currentPosition i = mm s.modal.unit (s.letterValue (axisLetter i))

theorem agrees_step {p p' : Parser} {m m' : SimplifiedMotion} (hr : Rest p) (ho : p.state.wcsOrigin = fun _ _ => 0)
    (h : p.parseBlock m = .ok (p', m')) (ha : Agrees p.state) (h90 : p.state.modal.distance = .G90)
    (hd : p'.state.modal.distance = p.state.modal.distance) (hu : p'.state.modal.unit = p.state.modal.unit)
    (he : p'.error ≠ .invalidFeedrate) : Agrees p'.state := by
  intro i hi
  rcases parse_any h with ⟨s, _, _⟩ | ⟨q, x, hk, hc, s, r, er, hm, _, _⟩ | ⟨q, hk, hx⟩
  · rw [s]; exact ha i hi
  · have e1 : p'.state.letterValue = (q.setLetter .P x).state.letterValue := by rw [s]; rfl
    have e2 : p'.state.modal = (q.setLetter .P x).state.modal := by rw [s]; rfl
    have e3 : p'.state.currentPosition i = (q.setLetter .P x).nextOf i := by rw [s]; exact if_pos hi
    rw [e3, e1]
    have hd' : (q.setLetter .P x).state.modal.distance = .G90 := by rw [← e2, hd, h90]
    have hu' : (q.setLetter .P x).state.modal.unit = p'.state.modal.unit := by rw [e2]
    have ho' : (q.setLetter .P x).state.wcsOrigin = fun _ _ => 0 := by rw [← ho]; exact hk.origin
    unfold nextOf inMm
    simp only [hd', hu', ho', reduceCtorEq, if_false, zero_add]
    rfl
  · by_cases hmv : Moved p' m'
    · obtain ⟨h1, -, -⟩ := moved_axis hr h hmv hi
      rw [h1, ho, hd, h90]
      simp
    · have hmod := exec_modal hx
      have stays : p'.state.currentPosition = p.state.currentPosition ∧
          p'.state.letterValue (axisLetter i) = p.state.letterValue (axisLetter i) := by
        rcases hx with ⟨t, _, ht, s, mo, r, _⟩ | ⟨k, mode, _, _, _, _, s, mo, r, _⟩ | ⟨_, _, _, s, _, r, er, _⟩ | ⟨_, _, _, s, mo, r, _⟩ |
          ⟨_, _, ax, s, _, r, er, _⟩
        · refine absurd ⟨by rw [r]; decide, ?_⟩ hmv
          rw [mo.type]; rcases ht with ⟨-, rfl⟩ | ⟨-, rfl⟩ <;> rfl
        · refine absurd ⟨by rw [r]; decide, ?_⟩ hmv
          rw [mo.type]; cases mode <;> rfl
        · exact absurd er he
        · refine absurd ⟨by rw [r]; decide, ?_⟩ hmv
          rw [mo.type]; cases q.state.modal.motion <;> rfl
        · have hcol : NoCollision p'.error := by rw [er]; exact ⟨by decide, by decide⟩
          have hnd : ¬ IsDwell p.block.words := by
            intro hd
            have := ((dwell_partial hr h hcol).1 hd).2.2.2.1
            rw [r] at this
            exact absurd this (by decide)
          obtain ⟨q', hk', hq', hx'⟩ := parse_ok hr h hcol hnd
          rw [s]
          refine ⟨hk.position, ?_⟩
          have hax : p.block.hasAxis = false := by
            rw [hk.counts] at ax; exact ax
          have hno : ¬ HasLetter p.block.words (axisChar i) := by
            intro hl
            have := hr.shows.axis (by
              interval_cases i
              · exact .inl hl
              · exact .inr (.inl hl)
              · exact .inr (.inr hl))
            rw [hax] at this; simp at this
          have hl := (hq'.letters (axisLetter i) (axis_mem hi)).2 (by rw [charOf_axis hi]; exact hno)
          have e : p'.state.letterValue (axisLetter i) = q'.state.letterValue (axisLetter i) := by
            have hnF := axis_ne hi (l := .F) (.inl rfl)
            rcases hx' with ⟨_, _, _, s', _⟩ | ⟨k, mode, _, _, _, _, s', _⟩ | ⟨_, _, _, s', _⟩ | ⟨_, _, _, s', _⟩ |
              ⟨_, _, _, s', _⟩ <;> rw [s']
            · rfl
            · simp [hnF]
            · rfl
          rw [s] at e
          rw [e, hl]
      rw [stays.1, stays.2, hu]
      exact ha i hi

/-- **C48**, partial (axes without a word): in every execution from reset in which no block changes the unit or the distance
mode and none is rejected for its feed rate, an axis without a word does not move. Missing: incremental mode, executions
with both modes or both units, and blocks after a rejected one, where it is false (`unmentioned_axes_violated`). -/
theorem unmentioned_axes_partial {m₀ m : SimplifiedMotion} {p : Parser} {log} (h : Run .reset m₀ log p m)
    (hl : ∀ e ∈ log, e.2.1.state.modal.distance = e.1.state.modal.distance ∧ e.2.1.state.modal.unit = e.1.state.modal.unit ∧
      e.2.1.error ≠ .invalidFeedrate) :
    ∀ e ∈ log, Moved e.2.1 e.2.2 → ∀ i, i < 3 → ¬ HasLetter e.1.block.words (axisChar i) →
      e.2.1.state.currentPosition i = e.1.state.currentPosition i := by
  suffices H : (Agrees p.state ∧ p.state.modal.distance = .G90) ∧ ∀ e ∈ log, Agrees e.1.state ∧ e.1.state.modal.distance = .G90 by
    intro e he hm i hi hn
    obtain ⟨hr, ho, m, hp⟩ := (run_rest h).2 e he
    obtain ⟨h1, -, h3⟩ := moved_axis hr hp hm hi
    rw [h3 hn, ho, (hl e he).1, (hl e he).2.1, (H.2 e he).2] at h1
    rw [h1, (H.2 e he).1 i hi]
    simp
  induction h with
  | start =>
    refine ⟨⟨fun i _ => ?_, rfl⟩, by simp⟩
    simp [reset, State.initial, mm]
  | line t _ hb ih =>
    rw [(getBlock_ok hb).2]
    exact ih hl
  | @parse log p m p' m' hrun hp ih =>
    have ih' := ih fun e he => hl e (List.mem_append_left _ he)
    have hlast := hl (p, p', m') (by simp)
    obtain ⟨⟨hr, ho⟩, -⟩ := run_rest hrun
    refine ⟨⟨agrees_step hr ho hp ih'.1.1 ih'.1.2 hlast.1 hlast.2.1 hlast.2.2, ?_⟩, fun e he => ?_⟩
    · exact hlast.1.trans ih'.1.2
    · rcases List.mem_append.1 he with he | he
      · exact ih'.2 e he
      · rw [List.mem_singleton.1 he]
        exact ih'.1

theorem moved_feed {p p' : Parser} {m m' : SimplifiedMotion} (hv : Moved p' m') (hp : p.parseBlock m = .ok (p', m')) :
    p'.error ≠ .invalidFeedrate := by
  obtain ⟨h1, h2⟩ := hv
  rcases parse_any hp with ⟨_, _, hn, _⟩ | ⟨q, x, hk, hc, s, r, er, hm, _⟩ | ⟨q, hk, hx⟩
  · exact absurd hn h1
  · rw [hm.type] at h2; simp [MotionType.moves] at h2
  · rcases hx with ⟨_, _, _, _, _, _, e, _⟩ | ⟨_, _, _, _, _, _, _, _, _, e, _⟩ | ⟨_, _, _, _, _, r, _⟩ | ⟨_, _, _, _, _, _, e, _⟩ |
      ⟨_, _, _, _, _, _, e, _⟩
    · rw [e]; decide
    · rw [e]; decide
    · exact absurd r h1
    · rw [e]; decide
    · rw [e]; decide

/-- Two lines with absolute coordinates: the second keeps X. -/
example : ∃ log p m, Run .reset (.fresh 3) log p m ∧ p.state.currentPosition 0 = 1 ∧ p.state.currentPosition 1 = 2 := by
  obtain ⟨p1, p2, m2, g1, w1, s1, r1, e1, c1⟩ := runs_line .reset (t := "G0 X1") (ws := [⟨71, 0, 0⟩, ⟨88, 1, 0⟩])
    (by decide +kernel) (by decide +kernel) (by decide +kernel) (by decide +kernel) (.fresh 3)
  obtain ⟨p3, p4, m4, g2, w2, s2, r2, e2, c2⟩ := runs_line p2 (t := "G0 Y2") (ws := [⟨71, 0, 0⟩, ⟨89, 2, 0⟩])
    (by decide +kernel) (by decide +kernel) (by decide +kernel) (by decide +kernel) m2
  have h := (((Run.start.line _ g1).parse e1).line _ g2).parse e2
  have v1 := (moved_of r1.rest e1 c1 (by rw [w1]; decide +kernel) (by rw [w1]; decide +kernel) (by rw [w1]; decide +kernel)).1
  have v2 := (moved_of r2.rest e2 c2 (by rw [w2]; decide +kernel) (by rw [w2]; decide +kernel) (by rw [w2]; decide +kernel)).1
  have b1 := (modal_settings_partial r1.rest e1 c1 (by rw [w1]; decide +kernel)).2.1
  have b2 := (modal_settings_partial r2.rest e2 c2 (by rw [w2]; decide +kernel)).2.1
  rw [w1] at b1
  rw [w2] at b2
  have d1 := b1.distance.kept (by decide +kernel)
  have d2 := b2.distance.kept (by decide +kernel)
  have u1 := b1.unit.kept (by decide +kernel)
  have u2 := b2.unit.kept (by decide +kernel)
  have n1 : p2.state.modal.distance = .G90 := by rw [d1, s1]; rfl
  have n2 : p2.state.modal.unit = .G21 := by rw [u1, s1]; rfl
  have x1 := (mentioned_axes_partial h _ (List.mem_append_left _ (List.mem_singleton.2 rfl)) v1 0 1 (by decide)
    (by rw [w1]; decide +kernel)).1 n1
  have y2 := (mentioned_axes_partial h _ (List.mem_append_right _ (List.mem_singleton.2 rfl)) v2 1 2 (by decide)
    (by rw [w2]; decide +kernel)).1 (by rw [d2, s2]; exact n1)
  have x2 := unmentioned_axes_partial h (fun e he => by
    simp only [List.nil_append, List.cons_append, List.mem_cons, List.not_mem_nil, or_false] at he
    rcases he with rfl | rfl
    · exact ⟨d1, u1, moved_feed v1 e1⟩
    · exact ⟨d2, u2, moved_feed v2 e2⟩) _ (List.mem_append_right _ (List.mem_singleton.2 rfl)) v2 0 (by decide)
    (by rw [w2]; decide +kernel)
  refine ⟨_, _, _, h, ?_, ?_⟩
  · simp only at x2
    rw [x2, s2]
    refine x1.trans ?_
    simp only [n2]; rfl
  · refine y2.trans ?_
    simp only [u2, s2, n2]; rfl

/-- Counterexamples to **C48**: in incremental mode, after "G91 G0 X1", the block "G0 Y1" moves X again, from 1 to 2; and in
absolute mode, after the block "G1 X5" is rejected for its missing feed rate at X0, the block "G0 Y1" moves X to 5. -/
theorem unmentioned_axes_violated :
    (∃ log p m, Run .reset (.fresh 3) log p m ∧ ∃ e ∈ log, e.1.block.words = [⟨71, 0, 0⟩, ⟨89, 1, 0⟩] ∧ Moved e.2.1 e.2.2 ∧
      e.1.state.currentPosition 0 = 1 ∧ e.2.1.state.currentPosition 0 = 2) ∧
    (∃ log p m, Run .reset (.fresh 3) log p m ∧ ∃ e ∈ log, e.1.block.words = [⟨71, 0, 0⟩, ⟨89, 1, 0⟩] ∧ Moved e.2.1 e.2.2 ∧
      e.1.state.currentPosition 0 = 0 ∧ e.2.1.state.currentPosition 0 = 5) := by
  constructor
  · obtain ⟨p1, p2, m2, g1, w1, s1, r1, e1, c1⟩ := runs_line .reset (t := "G91 G0 X1") (ws := [⟨71, 91, 910⟩, ⟨71, 0, 0⟩, ⟨88, 1, 0⟩])
      (by decide +kernel) (by decide +kernel) (by decide +kernel) (by decide +kernel) (.fresh 3)
    obtain ⟨p3, p4, m4, g2, w2, s2, r2, e2, c2⟩ := runs_line p2 (t := "G0 Y1") (ws := [⟨71, 0, 0⟩, ⟨89, 1, 0⟩])
      (by decide +kernel) (by decide +kernel) (by decide +kernel) (by decide +kernel) m2
    have h := (((Run.start.line _ g1).parse e1).line _ g2).parse e2
    have v1 := (moved_of r1.rest e1 c1 (by rw [w1]; decide +kernel) (by rw [w1]; decide +kernel) (by rw [w1]; decide +kernel)).1
    have v2 := (moved_of r2.rest e2 c2 (by rw [w2]; decide +kernel) (by rw [w2]; decide +kernel) (by rw [w2]; decide +kernel)).1
    have b1 := (modal_settings_partial r1.rest e1 c1 (by rw [w1]; decide +kernel)).2.1
    have b2 := (modal_settings_partial r2.rest e2 c2 (by rw [w2]; decide +kernel)).2.1
    rw [w1] at b1
    rw [w2] at b2
    have d1 : p2.state.modal.distance = .G91 := b1.distance.named ('G', 910, .G91) (by decide +kernel) (by decide +kernel)
    have d2 := b2.distance.kept (by decide +kernel)
    have u1 := b1.unit.kept (by decide +kernel)
    have u2 := b2.unit.kept (by decide +kernel)
    obtain ⟨a1, a2, -⟩ := moved_axis r1.rest e1 v1 (i := 0) (by decide)
    obtain ⟨a3, -, a4⟩ := moved_axis r2.rest e2 v2 (i := 0) (by decide)
    obtain ⟨-, o⟩ := run_rest h
    have x1 : p2.state.currentPosition 0 = 1 := by
      rw [a1, a2 1 (by rw [w1]; decide +kernel), u1, d1, s1]
      show (0 : ℚ) + ((if DistanceMode.G91 = .G91 then 0 else 0) + 1) = 1
      norm_num
    refine ⟨_, _, _, h, (p3, p4, m4), by simp, w2, v2, ?_, ?_⟩
    · rw [s2]; exact x1
    · have o2 : p3.state.wcsOrigin = fun _ _ => 0 := (o (p3, p4, m4) (by simp)).2.1
      simp only
      rw [a3, a4 (by rw [w2]; decide +kernel), u2, d2, s2, d1, x1, a2 1 (by rw [w1]; decide +kernel), u1, s1, ← s2, o2]
      show (0 : ℚ) + ((if DistanceMode.G91 = .G91 then 1 else 0) + 1) = 2
      norm_num
  · obtain ⟨p1, p2, m2, g1, w1, s1, r1, e1, c1⟩ := runs_line .reset (t := "G1 X5") (ws := [⟨71, 1, 10⟩, ⟨88, 5, 0⟩])
      (by decide +kernel) (by decide +kernel) (by decide +kernel) (by decide +kernel) (.fresh 3)
    obtain ⟨p3, p4, m4, g2, w2, s2, r2, e2, c2⟩ := runs_line p2 (t := "G0 Y1") (ws := [⟨71, 0, 0⟩, ⟨89, 1, 0⟩])
      (by decide +kernel) (by decide +kernel) (by decide +kernel) (by decide +kernel) m2
    have h := (((Run.start.line _ g1).parse e1).line _ g2).parse e2
    have v2 := (moved_of r2.rest e2 c2 (by rw [w2]; decide +kernel) (by rw [w2]; decide +kernel) (by rw [w2]; decide +kernel)).1
    have b1 := (modal_settings_partial r1.rest e1 c1 (by rw [w1]; decide +kernel)).2.1
    have b2 := (modal_settings_partial r2.rest e2 c2 (by rw [w2]; decide +kernel)).2.1
    rw [w1] at b1
    rw [w2] at b2
    have d1 := b1.distance.kept (by decide +kernel)
    have d2 := b2.distance.kept (by decide +kernel)
    have u1 := b1.unit.kept (by decide +kernel)
    have u2 := b2.unit.kept (by decide +kernel)
    obtain ⟨a3, -, a4⟩ := moved_axis r2.rest e2 v2 (i := 0) (by decide)
    obtain ⟨-, o⟩ := run_rest h
    have hst : p2.state.currentPosition 0 = 0 ∧ p2.state.letterValue .X = 5 := by
      obtain ⟨q, hk, hq, hx⟩ := parse_ok r1.rest e1 c1 (by rw [w1]; decide +kernel)
      have hF : q.state.letterValue .F = 0 := by
        rcases hq.feed with ⟨x, _, hv, _⟩ | ⟨_, _, hn⟩
        · exact absurd ⟨hv.choose, hv.choose_spec.1, hv.choose_spec.2.1⟩ (show ¬ HasLetter p1.block.words 'F' by rw [w1]; decide +kernel)
        · rw [hn (by rw [w1]; decide +kernel), s1]; rfl
      have hX : q.state.letterValue .X = 5 := by
        have := (hq.letters .X (by decide)).1 (by rw [w1]; decide +kernel)
        rw [w1] at this
        exact val_unique (l := .X) (by decide +kernel) (by simp) this (by decide +kernel)
      have h0 : q.state.currentPosition 0 = 0 := by rw [hk.position, s1]; rfl
      rcases hx with ⟨_, c, _⟩ | ⟨k, mode, tab, _, c, fed, _⟩ | ⟨_, _, _, s, _⟩ | ⟨_, n, _⟩ | ⟨_, n, _⟩
      · exact absurd ((keeps_codes hk (by decide)).1 c) (by rw [w1]; decide +kernel)
      · simp only [List.mem_cons, Prod.mk.injEq, List.not_mem_nil, or_false] at tab
        rcases tab with ⟨rfl, rfl⟩ | ⟨rfl, rfl⟩ | ⟨rfl, rfl⟩ | ⟨rfl, rfl⟩
        · exact absurd ((keeps_codes hk (by decide)).1 c) (by rw [w1]; decide +kernel)
        · have := fed rfl
          rw [hF] at this
          exact absurd this (lt_irrefl _)
        · exact absurd ((keeps_codes hk (by decide)).1 c) (by rw [w1]; decide +kernel)
        · exact absurd ((keeps_codes hk (by decide)).1 c) (by rw [w1]; decide +kernel)
      · rw [s]; exact ⟨h0, hX⟩
      all_goals exact absurd ((keeps_codes hk (by decide)).2 (by rw [w1]; decide +kernel)) (n 10 (by decide))
    refine ⟨_, _, _, h, (p3, p4, m4), by simp, w2, v2, ?_, ?_⟩
    · rw [s2]; exact hst.1
    · have o2 : p3.state.wcsOrigin = fun _ _ => 0 := (o (p3, p4, m4) (by simp)).2.1
      simp only
      rw [a3, a4 (by rw [w2]; decide +kernel), u2, d2, s2, d1, u1, s1, ← s2, o2]
      have : p2.state.letterValue (axisLetter 0) = 5 := hst.2
      rw [s2, this]
      show (0 : ℚ) + (0 + 5) = 5
      norm_num

end Moovr.Props
