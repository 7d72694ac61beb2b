import Verif.Props.GCodeArc
/-!
# Feed rates of G-code motions (C50)
-/
namespace Moovr.Props
open GCode Parser Num

/-- The feed rate in force in a block: that of its F word if positive; otherwise none after a change of the feed mode, or else the
one before. -/
structure FeedBy (ws : List Word) (old new : ℚ) : Prop where
  named : ∀ x, HasVal ws 'F' x → 0 < x → new = x
  dropped : (∀ x, HasVal ws 'F' x → x ≤ 0) → (HasCode ws 'G' 930 ∨ HasCode ws 'G' 940) → new = 0
  kept : (∀ x, HasVal ws 'F' x → x ≤ 0) → ¬ (HasCode ws 'G' 930 ∨ HasCode ws 'G' 940) → new = old

theorem feedBy_ready {ws : List Word} {s s' : State} (h : Ready ws s s') (hv : (ofWords ws).hasLetterWordViolation = false) :
    FeedBy ws (s.letterValue .F) (s'.letterValue .F) := by
  have hu : ∀ {x y}, HasVal ws 'F' x → HasVal ws 'F' y → x = y := fun hx hy => val_unique (l := .F) hv (by decide) hx hy
  rcases h.feed with ⟨x, h0, hx, e⟩ | ⟨h1, h2, h3⟩
  · refine ⟨fun y hy _ => by rw [e, hu hx hy], fun hn => ?_, fun hn => ?_⟩
    · exact absurd (hn x hx) (not_le.2 h0)
    · exact absurd (hn x hx) (not_le.2 h0)
  · refine ⟨fun y hy h0 => ?_, fun _ => h2, fun _ => h3⟩
    obtain ⟨x, hx0, hx⟩ := h1 ⟨hy.choose, hy.choose_spec.1, hy.choose_spec.2.1⟩
    rw [hu hx hy] at hx0
    exact absurd h0 (not_lt.2 hx0)

theorem speed_of {q : Parser} {m : SimplifiedMotion} (ht : m.type = .feedLinear ∨ IsArc m) :
    (q.state.modal.feedRate = .G94 → (q.calcSpeed m).vFeed = fin ((mm q.state.modal.unit (q.state.letterValue .F) : ℝ) / 60)) ∧
    (q.state.modal.feedRate = .G93 → ∀ L : ℝ, m.trajectory.length = fin L →
      (q.calcSpeed m).vFeed = fin (L * q.state.letterValue .F / 60)) := by
  have h60 : (60 : ℝ) ≠ 0 := by norm_num
  constructor
  · intro h
    unfold calcSpeed
    rcases ht with ht | ht | ht <;> rw [ht] <;> simp only [h, reduceCtorEq, if_false] <;> exact fin_div h60
  · intro h L hL
    unfold calcSpeed
    rcases ht with ht | ht | ht <;> rw [ht] <;> simp only [h, if_true, hL, num, fin_mul] <;> exact fin_div h60

/-- **C50**, partial: a block with G1 (and without G53) with no positive feed rate in force is rejected with `InvalidFeedrate` and does
not change the position; with a positive feed rate `f` in force it makes a motion, with the speed `f` (in mm, per minute) in mode G94, and
in mode G93 the speed that takes `1/f` minutes for the length of the path; in particular a positive speed (in mode G93: for a path of
positive length). Missing: G2 and G3, G53, and motions by axis words alone, where it is false (`feed_violated`). -/
theorem feed_required_partial {p p' : Parser} {m m' : SimplifiedMotion} (hr : Rest p) (h : p.parseBlock m = .ok (p', m'))
    (he : NoCollision p'.error) (hd : ¬ IsDwell p.block.words) (h1 : HasCode p.block.words 'G' 10)
    (hn : ∀ k ∈ [0, 20, 30, 530], ¬ HasCode p.block.words 'G' k) {f : ℚ} (hf : FeedBy p.block.words (p.state.letterValue .F) f) :
    (f ≤ 0 → p'.result = .error ∧ p'.error = .invalidFeedrate ∧ p'.state.currentPosition = p.state.currentPosition) ∧
    (0 < f → p'.result = .okContextUpdateAndMotion ∧ m'.type = .feedLinear ∧
      (p'.state.modal.feedRate = .G94 → m'.vFeed = fin ((mm p'.state.modal.unit f : ℝ) / 60) ∧ (0 : ℝ) < (mm p'.state.modal.unit f : ℝ) / 60) ∧
      (p'.state.modal.feedRate = .G93 → ∀ L : ℝ, m'.trajectory.length = fin L →
        m'.vFeed = fin (L * f / 60) ∧ (0 < L → 0 < L * f / 60 ∧ L / (L * f / 60) = 60 / f))) := by
  obtain ⟨q, hk, hq, hx⟩ := parse_ok hr h he hd
  have hmod := exec_modal hx
  have n : ∀ k ∈ [0, 20, 30, 530], ¬ HasCode q.block.words 'G' k := by
    intro k hk' hc
    refine hn k hk' ((keeps_codes hk ?_).1 hc)
    simp only [List.mem_cons, List.not_mem_nil, or_false] at hk'
    rcases hk' with rfl | rfl | rfl | rfl <;> decide
  have hF : q.state.letterValue .F = f := by
    have hb := feedBy_ready hq (hr.letters (parse_noViolation h he).2)
    by_cases hex : ∃ x, HasVal p.block.words 'F' x ∧ 0 < x
    · obtain ⟨x, hx, h0⟩ := hex
      rw [hf.named x hx h0, hb.named x hx h0]
    · have hle : ∀ x, HasVal p.block.words 'F' x → x ≤ 0 := fun x hx => not_lt.1 fun h0 => hex ⟨x, hx, h0⟩
      by_cases hg : HasCode p.block.words 'G' 930 ∨ HasCode p.block.words 'G' 940
      · rw [hf.dropped hle hg, hb.dropped hle hg]
      · rw [hf.kept hle hg, hb.kept hle hg]
  rcases hx with ⟨_, c, _⟩ | ⟨k, mode, t, _, c, fed, s, mo, r, _⟩ | ⟨_, _, unf, s, _, r, er, _⟩ | ⟨_, c, _⟩ | ⟨_, c, _⟩
  · exact absurd c (n _ (by simp))
  · simp only [List.mem_cons, List.not_mem_nil, or_false, Prod.mk.injEq] at t
    rcases t with ⟨rfl, rfl⟩ | ⟨rfl, rfl⟩ | ⟨rfl, rfl⟩ | ⟨rfl, rfl⟩
    · exact absurd c (n _ (by simp))
    · have f0 := fed rfl
      rw [hF] at f0
      refine ⟨fun hle => absurd f0 (not_lt.2 hle), fun _ => ⟨r, mo.type, fun h94 => ?_, fun h93 L hL => ?_⟩⟩
      · have e1 : q.state.modal.feedRate = .G94 := by rw [← h94, hmod]
        have e2 : q.state.modal.unit = p'.state.modal.unit := by rw [hmod]
        have hpos : (0 : ℚ) < mm p'.state.modal.unit f := by
          unfold mm; split_ifs
          · exact mul_pos f0 (by norm_num)
          · exact f0
        refine ⟨?_, div_pos (by exact_mod_cast hpos) (by norm_num)⟩
        refine mo.speed.1.trans (((speed_of (.inl mo.type)).1 e1).trans ?_)
        show fin ((mm q.state.modal.unit (q.state.letterValue .F) : ℝ) / 60) = _
        rw [hF, e2]
      · have e1 : q.state.modal.feedRate = .G93 := by rw [← h93, hmod]
        refine ⟨?_, fun hL0 => ?_⟩
        · refine mo.speed.1.trans (((speed_of (.inl mo.type)).2 e1 L hL).trans ?_)
          show fin (L * q.state.letterValue .F / 60) = _
          rw [hF]
        · have f0' : (0 : ℝ) < f := by exact_mod_cast f0
          refine ⟨by positivity, ?_⟩
          field_simp
    all_goals exact absurd c (n _ (by simp))
  · rw [hF] at unf
    refine ⟨fun _ => ⟨r, er, ?_⟩, fun h0 => absurd h0 unf⟩
    rw [s]; exact hk.position
  all_goals exact absurd ((keeps_codes hk (by decide)).2 h1) (c 10 (by simp))

/-- **C50**, the speed of every feed motion (lines and arcs, also by axis words alone and with G53): the feed rate `f` in force, in mm per
minute in mode G94; in mode G93 the length of the path in `1/f` minutes. -/
theorem feed_speed {p p' : Parser} {m m' : SimplifiedMotion} (hr : Rest p) (h : p.parseBlock m = .ok (p', m')) (hm : Moved p' m')
    (ht : m'.type = .feedLinear ∨ IsArc m') {f : ℚ} (hf : FeedBy p.block.words (p.state.letterValue .F) f) :
    (p'.state.modal.feedRate = .G94 → m'.vFeed = fin ((mm p'.state.modal.unit f : ℝ) / 60)) ∧
    (p'.state.modal.feedRate = .G93 → ∀ L : ℝ, m'.trajectory.length = fin L → m'.vFeed = fin (L * f / 60)) := by
  obtain ⟨he, hd⟩ := moved_no hr h hm
  obtain ⟨q, hk, hq, hx⟩ := parse_ok hr h he hd
  have hmod := exec_modal hx
  have hF : q.state.letterValue .F = f := by
    have hb := feedBy_ready hq (hr.letters (parse_noViolation h he).2)
    by_cases hex : ∃ x, HasVal p.block.words 'F' x ∧ 0 < x
    · obtain ⟨x, hx, h0⟩ := hex
      rw [hf.named x hx h0, hb.named x hx h0]
    · have hle : ∀ x, HasVal p.block.words 'F' x → x ≤ 0 := fun x hx => not_lt.1 fun h0 => hex ⟨x, hx, h0⟩
      by_cases hg : HasCode p.block.words 'G' 930 ∨ HasCode p.block.words 'G' 940
      · rw [hf.dropped hle hg, hb.dropped hle hg]
      · rw [hf.kept hle hg, hb.kept hle hg]
  have e1 : q.state.modal.feedRate = p'.state.modal.feedRate := by rw [hmod]
  have e2 : q.state.modal.unit = p'.state.modal.unit := by rw [hmod]
  have key : ∀ q' : Parser, q'.state.modal.feedRate = q.state.modal.feedRate → q'.state.modal.unit = q.state.modal.unit →
      q'.state.letterValue .F = q.state.letterValue .F → m'.vFeed = (q'.calcSpeed m').vFeed →
      (p'.state.modal.feedRate = .G94 → m'.vFeed = fin ((mm p'.state.modal.unit f : ℝ) / 60)) ∧
      (p'.state.modal.feedRate = .G93 → ∀ L : ℝ, m'.trajectory.length = fin L → m'.vFeed = fin (L * f / 60)) := by
    intro q' k1 k2 k3 k4
    constructor
    · intro h94
      rw [k4, (speed_of ht).1 (by rw [k1, e1, h94]), k2, k3, e2, hF]
    · intro h93 L hL
      rw [k4, (speed_of ht).2 (by rw [k1, e1, h93]) L hL, k3, hF]
  rcases hx with ⟨_, c, _, s, mo, _⟩ | ⟨k, mode, _, n, _, _, s, mo, _⟩ | ⟨_, _, _, _, _, r, _⟩ | ⟨n, _, _, s, mo, _⟩ | ⟨_, _, _, _, mo, _⟩
  · exact key _ rfl rfl rfl mo.speed.1
  · exact key _ rfl rfl rfl mo.speed.1
  · exact absurd r hm.1
  · exact key _ rfl rfl rfl mo.speed.1
  · have := hm.2
    rw [mo] at this
    exact absurd this (by simp [MotionType.moves])

/-- "G1 X3 F120" moves at 2 mm/s; "G1 X3" from reset is rejected. -/
example : (∃ (p1 p' : Parser) (m' : SimplifiedMotion), Parser.reset.getBlock (codes "G1 X3 F120") = .ok p1 ∧
      p1.parseBlock (.fresh 3) = .ok (p', m') ∧ m'.vFeed = fin 2) ∧
    (∃ (p1 p' : Parser) (m' : SimplifiedMotion), Parser.reset.getBlock (codes "G1 X3") = .ok p1 ∧
      p1.parseBlock (.fresh 3) = .ok (p', m') ∧ p'.error = .invalidFeedrate) := by
  constructor
  · obtain ⟨p1, p', m', hg, hw, hs, hr, e, he⟩ := runs_line .reset (t := "G1 X3 F120") (ws := [⟨71, 1, 10⟩, ⟨88, 3, 0⟩, ⟨70, 120, 0⟩])
      (by decide +kernel) (by decide +kernel) (by decide +kernel) (by decide +kernel) (.fresh 3)
    have hf : FeedBy p1.block.words (p1.state.letterValue .F) 120 := by
      have hv : HasVal p1.block.words 'F' 120 := by rw [hw]; decide +kernel
      refine ⟨fun x hx _ => ?_, fun hn => absurd (hn 120 hv) (by norm_num), fun hn => absurd (hn 120 hv) (by norm_num)⟩
      rw [hw] at hv hx
      exact val_unique (l := .F) (by decide +kernel) (by simp) hv hx
    obtain ⟨-, h2⟩ := feed_required_partial hr.rest e he (by rw [hw]; decide +kernel) (by rw [hw]; decide +kernel)
      (by rw [hw]; decide +kernel) hf
    obtain ⟨b1, b2, -⟩ := modal_settings_partial hr.rest e he (by rw [hw]; decide +kernel)
    rw [hw] at b1 b2
    have h94 : p'.state.modal.feedRate = .G94 := by rw [b1.feed.kept (by decide +kernel), hs]; rfl
    have h21 : p'.state.modal.unit = .G21 := by rw [b2.unit.kept (by decide +kernel), hs]; rfl
    refine ⟨p1, p', m', hg, e, ?_⟩
    rw [((h2 (by norm_num)).2.2.1 h94).1, h21]
    show fin (((120 : ℚ) : ℝ) / 60) = _
    norm_num
  · obtain ⟨p1, p', m', hg, hw, hs, hr, e, he⟩ := runs_line .reset (t := "G1 X3") (ws := [⟨71, 1, 10⟩, ⟨88, 3, 0⟩])
      (by decide +kernel) (by decide +kernel) (by decide +kernel) (by decide +kernel) (.fresh 3)
    have hno : ¬ HasLetter p1.block.words 'F' := by rw [hw]; decide +kernel
    have hf : FeedBy p1.block.words (p1.state.letterValue .F) 0 := by
      refine ⟨fun x hx _ => absurd ⟨hx.choose, hx.choose_spec.1, hx.choose_spec.2.1⟩ hno, fun _ _ => rfl, fun _ _ => ?_⟩
      rw [hs]; rfl
    obtain ⟨h1, -⟩ := feed_required_partial hr.rest e he (by rw [hw]; decide +kernel) (by rw [hw]; decide +kernel)
      (by rw [hw]; decide +kernel) hf
    exact ⟨p1, p', m', hg, e, (h1 le_rfl).2.1⟩

/-- Feed motions that are accepted without a feed rate have speed zero. -/
theorem zero_speed {p p' : Parser} {m m' : SimplifiedMotion} (hr : Rest p) (h : p.parseBlock m = .ok (p', m')) (hm : Moved p' m')
    (ht : m'.type = .feedLinear ∨ IsArc m') (h0 : p.state.letterValue .F = 0) (hF : ¬ HasLetter p.block.words 'F')
    (h94 : p.state.modal.feedRate = .G94) (hn : ¬ HasCode p.block.words 'G' 930) : m'.vFeed = fin 0 := by
  obtain ⟨hc, hd⟩ := moved_no hr h hm
  obtain ⟨q, hk, hq, hx⟩ := parse_ok hr h hc hd
  have f0 : q.state.letterValue .F = 0 := by
    rcases hq.feed with ⟨x, _, hv, _⟩ | ⟨_, h1, h2⟩
    · exact absurd ⟨hv.choose, hv.choose_spec.1, hv.choose_spec.2.1⟩ hF
    · by_cases hg : HasCode p.block.words 'G' 930 ∨ HasCode p.block.words 'G' 940
      · exact h1 hg
      · rw [h2 hg, h0]
  have g94 : q.state.modal.feedRate = .G94 := by
    rw [hq.modal]
    show pick _ _ _ _ = _
    rw [h94]
    unfold feedModes pick
    rw [if_neg hn]
    unfold pick
    split_ifs
    · rfl
    · rfl
  have zero : ∀ u : UnitMode, fin ((mm u (q.state.letterValue .F) : ℝ) / 60) = fin 0 := by
    intro u; rw [f0]; unfold mm; split_ifs <;> simp
  rcases hx with ⟨_, c, _, s, mo, _⟩ | ⟨k, mode, _, n, _, _, s, mo, _⟩ | ⟨_, _, _, _, _, r, _⟩ | ⟨n, _, _, s, mo, _⟩ | ⟨_, _, _, _, mo, _⟩
  · exact mo.speed.1.trans (((speed_of ht).1 g94).trans (zero _))
  · exact mo.speed.1.trans (((speed_of ht).1 g94).trans (zero _))
  · exact absurd r hm.1
  · exact mo.speed.1.trans (((speed_of ht).1 g94).trans (zero _))
  · have := hm.2
    rw [mo] at this
    exact absurd this (by simp [MotionType.moves])

/-- Counterexamples to **C50**, all from reset (no feed rate): "G2 X1 R1" and "G53 G1 X1" are accepted with speed 0; "G1 X1" is rejected,
but a block with only "X2" after it is accepted, as a G1 motion with speed 0. -/
theorem feed_violated :
    (∃ (p1 p' : Parser) (m' : SimplifiedMotion), Parser.reset.getBlock (codes "G2 X1 R1") = .ok p1 ∧
      p1.parseBlock (.fresh 3) = .ok (p', m') ∧ Reported p'.result ∧ m'.type = .feedHelicalCW ∧ m'.vFeed = fin 0) ∧
    (∃ (p1 p' : Parser) (m' : SimplifiedMotion), Parser.reset.getBlock (codes "G53 G1 X1") = .ok p1 ∧
      p1.parseBlock (.fresh 3) = .ok (p', m') ∧ p'.result ≠ .error ∧ m'.type = .feedLinear ∧ m'.vFeed = fin 0) ∧
    (∃ log p m, Run .reset (.fresh 3) log p m ∧ ∃ e ∈ log, e.1.block.words = [⟨88, 2, 0⟩] ∧ Reported e.2.1.result ∧
      e.2.2.type = .feedLinear ∧ e.2.2.vFeed = fin 0) := by
  refine ⟨?_, ?_, ?_⟩
  · obtain ⟨p1, p', m', hg, hw, hs, hr, e, he, ht, ha, hm⟩ := runs_arc .reset (t := "G2 X1 R1")
      (ws := [⟨71, 2, 20⟩, ⟨88, 1, 0⟩, ⟨82, 1, 0⟩]) (by decide +kernel) (by decide +kernel) (by decide +kernel)
      (by decide +kernel) (k := 20) (mode := .G2) (by decide) (by decide +kernel) (by decide +kernel) (.fresh 3)
    have hrep := (arc_of hr.rest e he (by rw [hw]; decide +kernel) (k := 20) (mode := .G2) (by decide) (by rw [hw]; decide +kernel)
      (by rw [hw]; decide +kernel)).2.2.2
    exact ⟨p1, p', m', hg, e, hrep, ht, zero_speed hr.rest e hm (.inr ha) (by rw [hs]; rfl) (by rw [hw]; decide +kernel)
      (by rw [hs]; rfl) (by rw [hw]; decide +kernel)⟩
  · obtain ⟨p1, p', m', hg, hw, hs, hr, e, he⟩ := runs_line .reset (t := "G53 G1 X1") (ws := [⟨71, 53, 530⟩, ⟨71, 1, 10⟩, ⟨88, 1, 0⟩])
      (by decide +kernel) (by decide +kernel) (by decide +kernel) (by decide +kernel) (.fresh 3)
    obtain ⟨q, hk, hq, hx⟩ := parse_ok hr.rest e he (by rw [hw]; decide +kernel)
    have key : p'.result = .okContextUpdateOnly ∧ m'.type = .feedLinear := by
      rcases hx with ⟨t, c, ht, s, mo, r, _⟩ | ⟨k, mode, _, n, _⟩ | ⟨n, _⟩ | ⟨n, _⟩ | ⟨n, _⟩
      · refine ⟨r, ?_⟩
        rcases ht with ⟨c0, -⟩ | ⟨-, rfl⟩
        · exact absurd ((keeps_codes hk (by decide)).1 c0) (by rw [hw]; decide +kernel)
        · exact mo.type
      all_goals exact absurd ((keeps_codes hk (by decide)).2 (by rw [hw]; decide +kernel)) n
    have hne : p'.result ≠ .error := by rw [key.1]; decide
    refine ⟨p1, p', m', hg, e, hne, key.2, zero_speed hr.rest e ⟨hne, by rw [key.2]; rfl⟩ (.inl key.2) (by rw [hs]; rfl)
      (by rw [hw]; decide +kernel) (by rw [hs]; rfl) (by rw [hw]; decide +kernel)⟩
  · obtain ⟨p1, p2, m2, g1, w1, s1, r1, e1, c1⟩ := runs_line .reset (t := "G1 X1") (ws := [⟨71, 1, 10⟩, ⟨88, 1, 0⟩])
      (by decide +kernel) (by decide +kernel) (by decide +kernel) (by decide +kernel) (.fresh 3)
    obtain ⟨p3, p4, m4, g2, w2, s2, r2, e2, c2⟩ := runs_line p2 (t := "X2") (ws := [⟨88, 2, 0⟩])
      (by decide +kernel) (by decide +kernel) (by decide +kernel) (by decide +kernel) m2
    have h := (((Run.start.line _ g1).parse e1).line _ g2).parse e2
    have st : p2.state.modal.motion = .G1 ∧ p2.state.letterValue .F = 0 ∧ p2.state.modal.feedRate = .G94 := by
      obtain ⟨b1, -, b3⟩ := modal_settings_partial r1.rest e1 c1 (by rw [w1]; decide +kernel)
      rw [w1] at b1 b3
      have hno : ¬ HasLetter p1.block.words 'F' := by rw [w1]; decide +kernel
      obtain ⟨q, hk, hq, hx⟩ := parse_ok r1.rest e1 c1 (by rw [w1]; decide +kernel)
      have f0 : q.state.letterValue .F = 0 := by
        rcases hq.feed with ⟨x, _, hv, _⟩ | ⟨_, h1, h2⟩
        · exact absurd ⟨hv.choose, hv.choose_spec.1, hv.choose_spec.2.1⟩ hno
        · rw [h2 (by rw [w1]; decide +kernel), s1]; rfl
      have fr : p2.state.modal.feedRate = .G94 := by rw [b1.feed.kept (by decide +kernel), s1]; rfl
      have cd : ∀ {k}, k ∈ [0, 10, 20, 30, 530] → (HasCode q.block.words 'G' k ↔ HasCode p1.block.words 'G' k) := by
        intro k hk'
        refine keeps_codes hk ?_
        simp only [List.mem_cons, List.not_mem_nil, or_false] at hk'
        rcases hk' with rfl | rfl | rfl | rfl | rfl <;> decide
      rcases hx with ⟨_, c, _⟩ | ⟨k, mode, tab, _, c, fed, _⟩ | ⟨_, _, _, s, _⟩ | ⟨_, n, _⟩ | ⟨_, n, _⟩
      · exact absurd ((cd (by decide)).1 c) (by rw [w1]; decide +kernel)
      · simp only [List.mem_cons, Prod.mk.injEq, List.not_mem_nil, or_false] at tab
        rcases tab with ⟨rfl, rfl⟩ | ⟨rfl, rfl⟩ | ⟨rfl, rfl⟩ | ⟨rfl, rfl⟩
        · exact absurd ((cd (by decide)).1 c) (by rw [w1]; decide +kernel)
        · have := fed rfl
          rw [f0] at this
          exact absurd this (lt_irrefl _)
        · exact absurd ((cd (by decide)).1 c) (by rw [w1]; decide +kernel)
        · exact absurd ((cd (by decide)).1 c) (by rw [w1]; decide +kernel)
      · refine ⟨by rw [s], by rw [s]; exact f0, fr⟩
      all_goals exact absurd ((cd (by decide)).2 (by rw [w1]; decide +kernel)) (n 10 (by decide))
    obtain ⟨q, hk, hq, hx⟩ := parse_ok r2.rest e2 c2 (by rw [w2]; decide +kernel)
    have cd : ∀ {k}, k ∈ [0, 10, 20, 30, 530] → ¬ HasCode q.block.words 'G' k := by
      intro k hk' hc
      have := (keeps_codes hk (by
        simp only [List.mem_cons, List.not_mem_nil, or_false] at hk'
        rcases hk' with rfl | rfl | rfl | rfl | rfl <;> decide)).1 hc
      rw [w2] at this
      obtain ⟨w, hw, hl, -⟩ := this
      rw [List.mem_singleton.1 hw] at hl
      exact absurd hl (by decide)
    have key : p4.result = .okContextUpdateAndMotion ∧ m4.type = .feedLinear := by
      rcases hx with ⟨_, c, _⟩ | ⟨k, mode, tab, _, c, fed, _⟩ | ⟨_, c, _⟩ | ⟨_, n, ax, s, mo, r, _⟩ | ⟨_, n, ax, _⟩
      · exact absurd c (cd (by decide))
      · refine absurd c (cd ?_)
        simp only [List.mem_cons, Prod.mk.injEq, List.not_mem_nil, or_false] at tab
        rcases tab with ⟨rfl, rfl⟩ | ⟨rfl, rfl⟩ | ⟨rfl, rfl⟩ | ⟨rfl, rfl⟩ <;> decide
      · exact absurd c (cd (by decide))
      · refine ⟨r, mo.type.trans ?_⟩
        show typeOf q.state.modal.motion = _
        have : q.state.modal.motion = p3.state.modal.motion := by rw [hq.modal]
        rw [this, s2, st.1]; rfl
      · have := r2.rest.shows.axis (.inl (by rw [w2]; decide +kernel))
        have h' : p3.block.hasAxis = false := by rw [hk.counts] at ax; exact ax
        rw [h'] at this; simp at this
    have hm : Moved p4 m4 := ⟨by rw [key.1]; decide, by rw [key.2]; rfl⟩
    refine ⟨_, _, _, h, (p3, p4, m4), by simp, w2, .inl key.1, key.2, ?_⟩
    exact zero_speed r2.rest e2 hm (.inl key.2) (by rw [s2]; exact st.2.1) (by rw [w2]; decide +kernel) (by rw [s2]; exact st.2.2)
      (by rw [w2]; decide +kernel)

end Moovr.Props
