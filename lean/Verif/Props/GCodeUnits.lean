import Verif.Lemmas.GCodeUnits
import Verif.Props.GCodePosition
/-!
# Properties of the units (C49)
-/
namespace Moovr.Props
open GCode GCode.Parser

theorem feedAfter_set {ws : List Word} (old : FeedMode) (h : (ofWords ws).hasModalGroupViolation = false) :
    SetBy feedGroup ws old (feedAfter ws old) := by
  have both : ¬ (HasCode ws 'G' 930 ∧ HasCode ws 'G' 940) := by
    rintro ⟨⟨w, hw, hc⟩, ⟨w', hw', hc'⟩⟩
    have := group_unique h (g := .feedRate) hw hw'
      (mem_groups (ks := [930]) ⟨hc.1, by simp [hc.2]⟩ (by decide)) (mem_groups (ks := [940]) ⟨hc'.1, by simp [hc'.2]⟩ (by decide))
    subst this
    have := hc.2.symm.trans hc'.2
    omega
  unfold feedAfter
  refine ⟨fun e he hc => ?_, fun hn => ?_⟩
  · simp only [feedGroup, List.mem_cons, List.not_mem_nil, or_false] at he
    rcases he with rfl | rfl
    · rw [if_pos hc]
    · rw [if_neg fun h => both ⟨h, hc⟩, if_pos hc]
  · rw [if_neg (hn ('G', 930, .G93) (by decide)), if_neg (hn ('G', 940, .G94) (by decide))]

/-- **C49**, partial (a call): interpreting a block in inches gives the same motion, result and position as interpreting the
block with all lengths and speeds multiplied by 25.4 in millimetres, and the states again correspond. Missing: blocks
that switch back to millimetres, and blocks with G20 and a dwell. -/
theorem units_call_partial {p p' : Parser} {m m' : SimplifiedMotion} {feed : FeedMode} (hr : Rest p)
    (h : p.parseBlock m = .ok (p', m')) (h21 : ¬ HasCode p.block.words 'G' 210)
    (hu : p.state.modal.unit = .G20 ∨ (HasCode p.block.words 'G' 200 ∧ ¬ IsDwell p.block.words))
    (hf : SetBy feedGroup p.block.words p.state.modal.feedRate feed) :
    (metric feed p).parseBlock m = .ok (metric feed p', m') := by
  rw [metric_parse hr.shows h21 hu hf, h]
  rfl

theorem shows_ofWords {p : Parser} {ws : List Word} (h : p.block = ofWords ws) : Shows p.block p.block.words := by
  have hc := counted_ofWords ws
  rw [h, ofWords_words]
  exact ⟨hc.axis.2, hc.offset.2, hc.radius.2⟩

/-- The unit and the feed mode after a block. -/
theorem unit_after {p p' : Parser} {m m' : SimplifiedMotion} {ws : List Word} (hb : p.block = ofWords ws)
    (h : p.parseBlock m = .ok (p', m')) (he : NoCollision p'.error) (h21 : ¬ HasCode ws 'G' 210)
    (hu : p.state.modal.unit = .G20 ∨ (HasCode ws 'G' 200 ∧ ¬ IsDwell ws)) :
    p'.state.modal.unit = .G20 ∧ p'.state.modal.feedRate = feedAfter ws p.state.modal.feedRate := by
  obtain ⟨h1, h2⟩ := parse_noViolation h he
  have hw : p.block.words = ws := by rw [hb, ofWords_words]
  rcases parse_split p m with ⟨h', -⟩ | ⟨-, h', -⟩ | ⟨-, -, e⟩
  · rw [h1] at h'; simp at h'
  · rw [h2] at h'; simp at h'
  set p0 : Parser := { p with result := .emptyBlock, error := .none } with hp0
  have hc : Shows p0.block p0.block.words := shows_ofWords hb
  obtain ⟨k1, r1⟩ := settings1_spec p0 hc
  change Ready1 p.block.words p.state _ at r1
  rw [hw] at r1
  have hunit1 : p0.settings1.state.modal.unit = p.state.modal.unit := by rw [r1.modal]
  have hfeed1 : p0.settings1.state.modal.feedRate = feedAfter ws p.state.modal.feedRate := by
    rw [r1.modal]
    rfl
  have hG : ∀ k, HasCode p0.settings1.block.words 'G' k ↔ HasCode ws 'G' k := by
    intro k
    rw [← hw]
    exact (k1.hasCode fun w hw => kind1_not hw).trans Iff.rfl
  have hPv : ∀ x, HasVal p0.settings1.block.words 'P' x → HasVal ws 'P' x := by
    rintro x ⟨w, a, b⟩
    rw [← hw]
    exact ⟨w, k1.sub a, b⟩
  generalize p0.settings1 = q1 at *
  rcases dwell_spec q1 { m with type := .none } with ⟨x, i, j, d1, d2, d3, -, -, e1⟩ | ⟨q2, e1, hb2, hs2, -⟩
  · rw [e1] at e
    rcases e with ⟨r, e2, e3⟩ | ⟨q, e2, -⟩
    · rw [h, ← Sum.inl.inj e2] at e3
      obtain ⟨r, e4, -, -, -, hs, -⟩ := moveThen_ok e3.symm
      have hst : p'.state.modal = q1.state.modal := by
        rw [e4]
        show r.state.modal = _
        rw [hs]; rfl
      rw [hst, hunit1, hfeed1]
      refine ⟨?_, rfl⟩
      rcases hu with hu | ⟨-, hu⟩
      · exact hu
      · exact absurd ⟨(hG 40).1 d1, x, d2, hPv x d3⟩ hu
    · simp at e2
  · have e' : p.parseBlock m = execute q2.settings2.changeData { m with type := .none } := by
      rcases e with ⟨r, a1, -⟩ | ⟨q, a1, a2⟩
      · rw [e1] at a1; simp at a1
      · rw [e1] at a1; rw [a2, Sum.inr.inj a1]
    rw [h] at e'
    have hx := execute_cases e'.symm
    have hstate : q2.settings2.changeData.state.modal.unit = .G20 ∧
        q2.settings2.changeData.state.modal.feedRate = feedAfter ws p.state.modal.feedRate := by
      rw [(changeData_spec _).2, (settings2_spec q2).2]
      simp only
      have c : ∀ k, HasCode q2.block.words 'G' k ↔ HasCode ws 'G' k := by intro k; rw [hb2]; exact hG k
      refine ⟨?_, by rw [hs2]; exact hfeed1⟩
      by_cases h200 : HasCode q2.block.words 'G' 200
      · simp [pick, unitModes, h200]
      · have hn : ¬ HasCode q2.block.words 'G' 210 := fun h => h21 ((c 210).1 h)
        simp only [pick, unitModes, h200, hn, if_false]
        rw [hs2, hunit1]
        rcases hu with hu | ⟨hu, -⟩
        · exact hu
        · exact absurd ((c 200).2 hu) h200
    generalize q2.settings2.changeData = q' at *
    rcases hx with ⟨_, _, _, s, _⟩ | ⟨_, _, _, _, _, _, s, _⟩ | ⟨_, _, _, s, _⟩ | ⟨_, _, _, s, _⟩ | ⟨_, _, _, s, _⟩ <;>
      rw [s] <;> exact hstate

/-- The same for a program, from a state in inches. -/
theorem metric_program {s : State} {m : SimplifiedMotion} {bs : List (List Word)} {log} (h : Program s m bs log)
    (hu : s.modal.unit = .G20) (hc : ∀ e ∈ log, NoCollision e.1.error) (h21 : ∀ ws ∈ bs, ¬ HasCode ws 'G' 210) :
    ∃ log', Program (metricState s) m (metricProgram s.modal.feedRate bs) log' ∧
      log'.map (fun e => (e.2, e.1.result, e.1.error, e.1.state.currentPosition)) =
        log.map (fun e => (e.2, e.1.result, e.1.error, e.1.state.currentPosition)) := by
  induction h with
  | done => exact ⟨[], .done, rfl⟩
  | @block s m ws bs m' log p p' hb hs hp _ ih =>
    have he := hc (p', m') (by simp)
    have hn := h21 ws (by simp)
    subst hs
    obtain ⟨u1, u2⟩ := unit_after hb hp he hn (.inl hu)
    obtain ⟨log', i1, i2⟩ := ih u1 (fun e he => hc e (List.mem_cons_of_mem _ he)) (fun ws hw => h21 ws (List.mem_cons_of_mem _ hw))
    rw [u2] at i1
    obtain ⟨v1, -⟩ := parse_noViolation hp he
    have hw : p.block.words = ws := by rw [hb, ofWords_words]
    have hm := metric_parse (fm := feedAfter ws p.state.modal.feedRate) (m := m) (shows_ofWords hb) (by rw [hw]; exact hn)
      (.inl hu) (by rw [hw]; exact feedAfter_set _ (by rw [← hb]; exact v1))
    rw [hp] at hm
    refine ⟨_, Program.block ?_ rfl hm i1, ?_⟩
    · have := congrArg Parser.block (metric_block (fm := feedAfter ws p.state.modal.feedRate) p ws)
      have hpp : ({ p with block := ofWords ws } : Parser) = p := by rw [← hb]
      rw [hpp] at this
      exact this
    · rw [List.map_cons, List.map_cons, i2]
      rfl

/-- **C49**, partial: a program that starts with G20 makes the same motions, results and positions as the program in which
G20 is replaced by G21, all lengths are multiplied by 25.4, and all feed rates that are speeds too. Missing: programs that
switch back to millimetres (`unit_switch_violated`). -/
theorem units_partial {m : SimplifiedMotion} {bs : List (List Word)} {log}
    (h : Program .initial m ([⟨71, 20, 200⟩] :: bs) log) (hc : ∀ e ∈ log, NoCollision e.1.error)
    (h21 : ∀ ws ∈ bs, ¬ HasCode ws 'G' 210) :
    ∃ log', Program .initial m ([⟨71, 21, 210⟩] :: metricProgram .G94 bs) log' ∧
      log'.map (fun e => (e.2, e.1.result, e.1.error, e.1.state.currentPosition)) =
        log.map (fun e => (e.2, e.1.result, e.1.error, e.1.state.currentPosition)) := by
  obtain _ | @⟨_, _, _, _, m', log, p, p', hb, hs, hp, hrest⟩ := h
  have he := hc (p', m') (by simp)
  have hdw : ¬ IsDwell [⟨71, 20, 200⟩] := by
    rintro ⟨h, -⟩
    revert h
    decide
  obtain ⟨u1, u2⟩ := unit_after hb hp he (by decide) (.inr ⟨by decide, hdw⟩)
  have hmode : p'.state.modal.feedRate = .G94 := by
    rw [u2, hs]
    decide
  obtain ⟨log', i1, i2⟩ := metric_program hrest u1 (fun e he => hc e (List.mem_cons_of_mem _ he)) h21
  rw [hmode] at i1
  have hw : p.block.words = [⟨71, 20, 200⟩] := by rw [hb, ofWords_words]
  have hm := metric_parse (fm := .G94) (m := m) (shows_ofWords hb) (by rw [hw]; decide)
    (.inr ⟨by rw [hw]; decide, by rw [hw]; exact hdw⟩)
    (by rw [hw, hs]; exact feedAfter_set (ws := [⟨71, 20, 200⟩]) .G94 (by decide +kernel))
  rw [hp] at hm
  refine ⟨_, Program.block ?_ ?_ hm i1, ?_⟩
  · have := congrArg Parser.block (metric_block (fm := .G94) p [⟨71, 20, 200⟩])
    have hpp : ({ p with block := ofWords [⟨71, 20, 200⟩] } : Parser) = p := by rw [← hb]
    rw [hpp] at this
    rw [this]
    congr 1
  · show metricState p.state = .initial
    rw [hs]
    unfold metricState State.initial
    congr 1
    funext l
    cases l <;> simp [metricValue]
  · rw [List.map_cons, List.map_cons, i2]
    rfl

/-- Counterexample to **C49** (switching units): after "G0 X1" the block "G20 G0 Y1" moves X to 25.4. -/
theorem unit_switch_violated :
    ∃ log p m, Run .reset (.fresh 3) log p m ∧ ∃ e ∈ log, e.1.block.words = [⟨71, 20, 200⟩, ⟨71, 0, 0⟩, ⟨89, 1, 0⟩] ∧
      Moved e.2.1 e.2.2 ∧ e.1.state.currentPosition 0 = 1 ∧ e.2.1.state.currentPosition 0 = 254 / 10 := by
  obtain ⟨p1, p2, m2, g1, w1, s1, r1, e1, c1⟩ := runs_line .reset (t := "G0 X1") (ws := [⟨71, 0, 0⟩, ⟨88, 1, 0⟩])
    (by decide +kernel) (by decide +kernel) (by decide +kernel) (by decide +kernel) (.fresh 3)
  obtain ⟨p3, p4, m4, g2, w2, s2, r2, e2, c2⟩ := runs_line p2 (t := "G20 G0 Y1")
    (ws := [⟨71, 20, 200⟩, ⟨71, 0, 0⟩, ⟨89, 1, 0⟩])
    (by decide +kernel) (by decide +kernel) (by decide +kernel) (by decide +kernel) m2
  have h := (((Run.start.line _ g1).parse e1).line _ g2).parse e2
  have v1 := (moved_of r1.rest e1 c1 (by rw [w1]; decide +kernel) (by rw [w1]; decide +kernel) (by rw [w1]; decide +kernel)).1
  have v2 := (moved_of r2.rest e2 c2 (by rw [w2]; decide +kernel) (by rw [w2]; decide +kernel) (by rw [w2]; decide +kernel)).1
  have b1 := (modal_settings_partial r1.rest e1 c1 (by rw [w1]; decide +kernel)).2.1
  have b2 := (modal_settings_partial r2.rest e2 c2 (by rw [w2]; decide +kernel)).2.1
  rw [w1] at b1
  rw [w2] at b2
  have d1 := b1.distance.kept (by decide +kernel)
  have d2 := b2.distance.kept (by decide +kernel)
  have u1 := b1.unit.kept (by decide +kernel)
  have u2 : p4.state.modal.unit = .G20 := b2.unit.named ('G', 200, .G20) (by decide +kernel) (by decide +kernel)
  obtain ⟨a1, a2, -⟩ := moved_axis r1.rest e1 v1 (i := 0) (by decide)
  obtain ⟨a3, -, a4⟩ := moved_axis r2.rest e2 v2 (i := 0) (by decide)
  obtain ⟨-, o⟩ := run_rest h
  have x1 : p2.state.currentPosition 0 = 1 := by
    rw [a1, a2 1 (by rw [w1]; decide +kernel), u1, d1, s1]
    show (0 : ℚ) + ((if DistanceMode.G90 = .G91 then 0 else 0) + 1) = 1
    norm_num
  refine ⟨_, _, _, h, (p3, p4, m4), by simp, w2, v2, ?_, ?_⟩
  · rw [s2]; exact x1
  · have o2 : p3.state.wcsOrigin = fun _ _ => 0 := (o (p3, p4, m4) (by simp)).2.1
    simp only
    rw [a3, a4 (by rw [w2]; decide +kernel), u2, d2, s2, d1, a2 1 (by rw [w1]; decide +kernel), ← s2, o2, s1]
    show (0 : ℚ) + ((if DistanceMode.G90 = .G91 then _ else 0) + mm .G20 1) = 254 / 10
    norm_num [mm]
    intro h
    exact absurd h (by decide)

/-- A program in inches and the one in millimetres. -/
example : metricProgram .G94 [[⟨71, 1, 10⟩, ⟨88, 1, 0⟩, ⟨70, 10, 0⟩], [⟨71, 93, 930⟩, ⟨89, 2, 0⟩, ⟨70, 4, 0⟩], [⟨71, 4, 40⟩, ⟨80, 1, 0⟩]] =
    [[⟨71, 1, 10⟩, ⟨88, 254 / 10, 0⟩, ⟨70, 254, 0⟩], [⟨71, 93, 930⟩, ⟨89, 508 / 10, 0⟩, ⟨70, 4, 0⟩], [⟨71, 4, 40⟩, ⟨80, 1, 0⟩]] := by
  decide +kernel

/-- Executing one more block, in any state. -/
theorem program_cons {ws : List Word} {bs : List (List Word)} {t : List Nat} (l : Block.ofString t = .ok (ofWords ws))
    (h : ∀ l ∈ ['I', 'J', 'K', 'R'], ¬ HasLetter ws l) (v1 : (ofWords ws).hasModalGroupViolation = false)
    (v2 : (ofWords ws).hasLetterWordViolation = false)
    (rest : ∀ s m, ∃ log, Program s m bs log ∧ (∀ e ∈ log, NoCollision e.1.error) ∧ log.length = bs.length) (s : State)
    (m : SimplifiedMotion) :
    ∃ log, Program s m (ws :: bs) log ∧ (∀ e ∈ log, NoCollision e.1.error) ∧ log.length = (ws :: bs).length := by
  obtain ⟨p, hb, hs⟩ : ∃ p : Parser, p.block = ofWords ws ∧ p.state = s :=
    ⟨{ Parser.reset with block := ofWords ws, state := s }, rfl, rfl⟩
  have r : Read p := ⟨t, by rw [hb]; exact l⟩
  obtain ⟨p', m', e⟩ := parse_total m r hb h
  obtain ⟨log, hp, hc, hl⟩ := rest p'.state m'
  have c := noCollision_counts r.rest e (by rw [hb]; exact v1) (by rw [hb]; exact v2)
  refine ⟨(p', m') :: log, .block hb hs e hp, ?_, by simp [hl]⟩
  intro x hx
  rcases List.mem_cons.1 hx with rfl | hx
  · exact c
  · exact hc x hx

/-- It can be executed. -/
example : ∃ log, Program .initial (.fresh 3) [[⟨71, 20, 200⟩], [⟨71, 1, 10⟩, ⟨88, 1, 0⟩, ⟨70, 10, 0⟩]] log ∧
    (∀ e ∈ log, NoCollision e.1.error) ∧ log.length = 2 :=
  program_cons (line (t := codes "G20") (by decide +kernel)) (by decide +kernel) (by decide +kernel) (by decide +kernel)
    (program_cons (line (t := codes "G1 X1 F10") (by decide +kernel)) (by decide +kernel) (by decide +kernel)
      (by decide +kernel) fun _ _ => ⟨[], .done, by simp, rfl⟩) _ _

end Moovr.Props
