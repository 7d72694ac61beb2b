import Verif.Lemmas.GCodeLoop
import Verif.Spec.GCodeLoop
import Verif.Props.GCodePosition
/-!
# Properties of the loop over the words of a block (C57)
-/
namespace Moovr.Props
open GCode GCode.Parser

theorem plain_takes {ws : List Word} (h : Plain ws) : Takes ws := by
  have key : ∀ w ∈ ws, ∀ c ∈ ['N', 'F', 'S'], WithLetter c w →
      (c = 'N' → 0 ≤ w.number) ∧ (c = 'F' → 0 < w.number) ∧ (c = 'S' → 0 ≤ w.number) := by
    intro w hw c hc hl
    have no : ∀ {α : Type} (t : GroupTable α), (∀ e ∈ t, e.1 = 'G' ∨ e.1 = 'M') → ¬ InGroup t w := by
      rintro α t ht ⟨e, he, h1, -⟩
      unfold WithLetter at hl
      rw [hl] at h1
      rcases ht e he with e' | e' <;> rw [e'] at h1 <;> revert h1 <;>
        (simp only [List.mem_cons, List.not_mem_nil, or_false] at hc; rcases hc with rfl | rfl | rfl <;> decide)
    rcases h.words w hw with h | h
    · rcases h with ⟨d, hd, h⟩ | h | h | h | h | h | h | h | h | h | h | h
      · unfold WithLetter at hl h
        rw [hl] at h
        exfalso
        simp only [List.mem_cons, List.not_mem_nil, or_false] at hd hc
        rcases hd with rfl | rfl | rfl | rfl | rfl | rfl | rfl <;> rcases hc with rfl | rfl | rfl <;> revert h <;> decide
      · obtain ⟨h1, h2⟩ := h
        unfold WithLetter at hl h1
        rw [hl] at h1
        simp only [List.mem_cons, List.not_mem_nil, or_false] at hc
        rcases hc with rfl | rfl | rfl
        · exact absurd h1 (by decide)
        · exact ⟨by simp, fun _ => h2, by simp⟩
        · exact absurd h1 (by decide)
      · obtain ⟨h1, h2⟩ := h
        unfold WithLetter at hl h1
        rw [hl] at h1
        simp only [List.mem_cons, List.not_mem_nil, or_false] at hc
        rcases hc with rfl | rfl | rfl
        · exact absurd h1 (by decide)
        · exact absurd h1 (by decide)
        · exact ⟨by simp, by simp, fun _ => h2⟩
      · obtain ⟨h1, h2⟩ := h
        unfold WithLetter at hl h1
        rw [hl] at h1
        simp only [List.mem_cons, List.not_mem_nil, or_false] at hc
        rcases hc with rfl | rfl | rfl
        · exact ⟨fun _ => h2, by simp, by simp⟩
        · exact absurd h1 (by decide)
        · exact absurd h1 (by decide)
      all_goals exact absurd h (no _ (by decide))
    · exact absurd h (no _ (by decide))
  have group : ∀ {α : Type} (t : GroupTable α) (l : Char) (ks : List Nat), (∀ k ∈ ks, ∃ e ∈ t, e.1 = l ∧ e.2.1 = k) →
      ¬ Twice (InGroup t) ws → Single (Among l ks) ws := by
    intro α t l ks hks ht
    refine single_of_not_twice ?_
    rintro ⟨u, v, hs, hu, hv⟩
    have hin : ∀ w, Among l ks w → InGroup t w := by
      rintro w ⟨h1, h2⟩
      obtain ⟨e, he, e1, e2⟩ := hks _ h2
      exact ⟨e, he, by rw [e1]; exact h1, e2.symm⟩
    exact ht ⟨u, v, hs, hin u hu, hin v hv⟩
  exact ⟨h.line, fun w hw hl => (key w hw 'N' (by simp) hl).1 rfl, fun w hw hl => (key w hw 'F' (by simp) hl).2.1 rfl,
    fun w hw hl => (key w hw 'S' (by simp) hl).2.2 rfl,
    group overrideGroup 'M' [480, 490] (by decide) h.override, group coordGroup 'G' _ (by decide) h.coords⟩

theorem setting_kind {w : Word} (h : Setting w) : Kind w := by
  have grp : ∀ {α : Type} (t : GroupTable α) (ks : List Nat) (l : Char), (∀ e ∈ t, e.1 = l ∧ e.2.1 ∈ ks) → InGroup t w →
      w.letter = l.toNat ∧ w.intNumber ∈ ks := by
    rintro α t ks l ht ⟨e, he, h1, h2⟩
    obtain ⟨a, b⟩ := ht e he
    exact ⟨by rw [← a]; exact h1, by rw [h2]; exact b⟩
  rcases h with ⟨c, hc, h⟩ | h | h | h | h | h | h | h | h | h | h | h
  · simp only [List.mem_cons, List.not_mem_nil, or_false] at hc
    rcases hc with rfl | rfl | rfl | rfl | rfl | rfl | rfl
    · exact .inl (.inr ⟨.X, by simp, h⟩)
    · exact .inl (.inr ⟨.Y, by simp, h⟩)
    · exact .inl (.inr ⟨.Z, by simp, h⟩)
    · exact .inl (.inr ⟨.I, by simp, h⟩)
    · exact .inl (.inr ⟨.J, by simp, h⟩)
    · exact .inl (.inr ⟨.K, by simp, h⟩)
    · exact .inl (.inr ⟨.R, by simp, h⟩)
  · exact .inl (.inr ⟨.F, by simp, h.1⟩)
  · exact .inl (.inr ⟨.S, by simp, h.1⟩)
  · exact .inl (.inr ⟨.N, by simp, h.1⟩)
  · exact .inr (grp planeGroup _ 'G' (by decide) h)
  · exact .inr (grp unitGroup _ 'G' (by decide) h)
  · exact .inr (grp coordGroup _ 'G' (by decide) h)
  · exact .inr (grp distanceGroup _ 'G' (by decide) h)
  · exact .inl (.inl (grp spindleGroup _ 'M' (by decide) h))
  · exact .inl (.inl (grp floodGroup _ 'M' (by decide) h))
  · exact .inl (.inl (grp mistGroup _ 'M' (by decide) h))
  · exact .inl (.inl (grp overrideGroup _ 'M' (by decide) h))

/-- A plain block is consumed by one call. -/
theorem plain_call {p p' : Parser} {m m' : SimplifiedMotion} (hr : Rest p) (h : p.parseBlock m = .ok (p', m'))
    (he : NoCollision p'.error) (hp : Plain p.block.words) : p'.block.words = [] := by
  have hmo : ∀ w ∈ p.block.words, Kind w ∨ Among 'G' [0, 10, 20, 30] w := by
    intro w hw
    refine (hp.words w hw).imp setting_kind ?_
    rintro ⟨e, he, h1, h2⟩
    simp only [motionGroup, List.mem_cons, List.not_mem_nil, or_false] at he
    rcases he with rfl | rfl | rfl | rfl <;> exact ⟨h1, by rw [h2]; simp⟩
  have hd : ¬ IsDwell p.block.words := by
    rintro ⟨⟨w, hw, hc⟩, -⟩
    rcases hmo w hw with h | h
    · exact kind_not h (by decide) hc
    · have := h.2
      rw [hc.2] at this
      simp at this
  obtain ⟨q, hl, hg, hx⟩ := parse_gone hr h he hd (plain_takes hp)
  have hq : ∀ w ∈ q.block.words, Among 'G' [0, 10, 20, 30] w := fun w hw => (hmo w (hl.mem hw)).resolve_left (hg w hw)
  obtain ⟨hv, -⟩ := parse_noViolation h he
  have hs : Single (Among 'G' [0, 10, 20, 30]) q.block.words :=
    (single_group (hr.groups hv) .motion fun w hw => mem_groups hw (by decide)).left hl
  rcases hx with ⟨_, _, _, _, _, _, _, w, _⟩ | ⟨k, _, ht, _, _, _, _, _, _, _, ⟨w, hw, hperm⟩, _⟩ | ⟨_, _, _, _, _, _, _, w, _⟩ |
      ⟨_, hn, _, _, _, _, _, w⟩ | ⟨_, _, _, _, _, _, _, w, _⟩
  · exact w
  · refine List.eq_nil_iff_forall_not_mem.2 fun x hx => ?_
    refine gone_of_perm (P := Among 'G' [0, 10, 20, 30]) (w := w) ⟨hw.1, ?_⟩ hperm hs x hx
      (hq x (hperm.mem_iff.2 (List.mem_cons_of_mem _ hx)))
    rw [hw.2]
    simp only [List.mem_cons, Prod.mk.injEq, List.not_mem_nil, or_false] at ht
    rcases ht with ⟨rfl, -⟩ | ⟨rfl, -⟩ | ⟨rfl, -⟩ | ⟨rfl, -⟩ <;> simp
  · exact w
  · rw [w]
    refine List.eq_nil_iff_forall_not_mem.2 fun x hx => ?_
    exact hn _ (hq x hx).2 ⟨x, hx, (hq x hx).1, rfl⟩
  · exact w

/-- **C57**, partial: the loop over a plain block makes at most one call and so at most one motion. Missing: blocks with other
words, see `loop_no_axes_partial` and `loop_violated`. -/
theorem loop_plain_partial {p q : Parser} {m n : SimplifiedMotion} {log} (hr : Rest p) (hp : Plain p.block.words)
    (h : Calls p m log q n) (hc : ∀ e ∈ log, NoCollision e.1.error) :
    log.length ≤ 1 ∧ motions log ≤ 1 ∧ (log ≠ [] → q.block.words = []) := by
  suffices H : (log = [] ∧ q = p) ∨ (log.length = 1 ∧ q.block.words = []) by
    rcases H with ⟨rfl, -⟩ | ⟨h1, h2⟩
    · simp [motions]
    · refine ⟨h1.le, ?_, fun _ => h2⟩
      unfold motions
      exact (List.countP_le_length).trans h1.le
  induction h with
  | start => exact .inl ⟨rfl, rfl⟩
  | @call log q n q' n' _ hw hx ih =>
    have hne := hc (q', n') (by simp)
    rcases ih fun e he => hc e (List.mem_append_left _ he) with ⟨rfl, rfl⟩ | ⟨-, h2⟩
    · exact .inr ⟨rfl, plain_call hr hx hne hp⟩
    · exact absurd h2 hw

/-- Codes that make `parseBlock` do more than settings. -/
def Quiet (ws : List Word) : Prop := ∀ k ∈ [0, 10, 20, 30, 40, 530], ¬ HasCode ws 'G' k

/-- Without axis words, a call consumes the block or leaves no motion word. -/
theorem no_axes_call {p p' : Parser} {m m' : SimplifiedMotion} (hr : Rest p) (h : p.parseBlock m = .ok (p', m'))
    (he : NoCollision p'.error) (ha : p.block.hasAxis = false) :
    p'.block.hasAxis = false ∧ (p'.block.words = [] ∨ Quiet p'.block.words) ∧
      (Quiet p.block.words → p'.block.words = [] ∧ ¬ Reported p'.result) := by
  obtain ⟨hv, hv2⟩ := parse_noViolation h he
  have ha' : p'.block.hasAxis = false := by rw [(parse_words h).1]; exact ha
  have single : ∀ (g : ModalGroup) (ks : List Nat), (∀ k ∈ ks, g ∈ Block.groupsOf ⟨'G'.toNat, 0, k⟩) →
      Single (Among 'G' ks) p.block.words := fun g ks hk => single_group (hr.groups hv) g fun w hw => mem_groups hw hk
  have hs1 := single .motion [0, 10, 20, 30, 40] (by decide)
  have hs2 := single .group0 [40, 530] (by decide)
  by_cases hd : IsDwell p.block.words
  · refine ⟨ha', .inr ?_, fun hq => absurd hd.1 (hq 40 (by simp))⟩
    obtain ⟨q, x, i, j, hk, -, -, -, -, hi, -, e⟩ := parse_dwell m hr rfl hv hv2 hd
    rw [h] at e
    obtain ⟨r, e', hb, -⟩ := moveThen_ok e.symm
    obtain ⟨-, w, hw, -, hperm⟩ := search2_some hi
    have hl : ∀ v ∈ p'.block.words, v ∈ (q.block.removeWord i).words := by
      intro v hv
      rw [e'] at hv
      change v ∈ ((r.block.removeWord i).removeWord j).words at hv
      have hb' : r.block = q.block := hb
      rw [hb'] at hv
      obtain ⟨t, ht⟩ := remove_words (q.block.removeWord i) j
      exact ht.mem_iff.2 (List.mem_append_right t hv)
    have g1 := gone_of_perm (P := Among 'G' [0, 10, 20, 30, 40]) ⟨hw.1, by rw [hw.2]; simp⟩ hperm (hs1.left hk.left)
    have g2 := gone_of_perm (P := Among 'G' [40, 530]) ⟨hw.1, by rw [hw.2]; simp⟩ hperm (hs2.left hk.left)
    rintro k hk' ⟨v, hv, c1, c2⟩
    have a1 := g1 v (hl v hv)
    have a2 := g2 v (hl v hv)
    unfold Among at a1 a2
    rw [c2] at a1 a2
    simp only [c1, true_and, List.mem_cons, List.not_mem_nil, or_false] at a1 a2 hk'
    omega
  · obtain ⟨q, hk, -, hx⟩ := parse_ok hr h he hd
    have hqa : q.block.hasAxis = false := by rw [hk.counts]; exact ha
    have code : ∀ k ∈ [0, 10, 20, 30, 40, 530], HasCode q.block.words 'G' k → HasCode p.block.words 'G' k := by
      rintro k - ⟨w, hw, hc⟩
      exact ⟨w, hk.sub hw, hc⟩
    refine ⟨ha', ?_⟩
    rcases hx with ⟨_, hc, _, _, _, r, _, w, _⟩ | ⟨k, _, ht, hn, hc, _, _, _, _, _, ⟨w, hw, hperm⟩, _⟩ | ⟨_, hc, _, _, _, _, _, w, _⟩ |
      ⟨_, _, hc, _⟩ | ⟨_, _, _, _, _, r, _, w, _⟩
    · exact ⟨.inl w, fun _ => ⟨w, by rw [r]; simp [Reported]⟩⟩
    · have hk4 : k ∈ [0, 10, 20, 30] := by
        simp only [List.mem_cons, Prod.mk.injEq, List.not_mem_nil, or_false] at ht ⊢
        omega
      refine ⟨.inr ?_, fun hq => absurd (code k (by simp at hk4 ⊢; omega) hc) (hq k (by simp at hk4 ⊢; omega))⟩
      have g1 := gone_of_perm (P := Among 'G' [0, 10, 20, 30, 40]) ⟨hw.1, by rw [hw.2]; simp at hk4 ⊢; omega⟩ hperm
        (hs1.left hk.left)
      rintro k' hk' ⟨v, hv, c1, c2⟩
      have a1 := g1 v hv
      unfold Among at a1
      rw [c2] at a1
      simp only [c1, true_and, List.mem_cons, List.not_mem_nil, or_false] at a1 hk'
      have : k' = 530 := by omega
      subst this
      exact hn ⟨v, hperm.mem_iff.2 (List.mem_cons_of_mem _ hv), c1, c2⟩
    · exact ⟨.inl w, fun hq => absurd (code 10 (by simp) hc) (hq 10 (by simp))⟩
    · rw [hqa] at hc; simp at hc
    · exact ⟨.inl w, fun _ => ⟨w, by rw [r]; simp [Reported]⟩⟩

/-- **C57**, partial: the loop over a block without axis words, whatever its other words, makes at most two calls and at most one
motion. Missing: blocks with axis words and words that no call consumes, and colliding words (`loop_violated`). -/
theorem loop_no_axes_partial {p q : Parser} {m n : SimplifiedMotion} {log} (hr : Read p)
    (ha : ∀ l ∈ ['X', 'Y', 'Z'], ¬ HasLetter p.block.words l) (h : Calls p m log q n) (hc : ∀ e ∈ log, NoCollision e.1.error) :
    log.length ≤ 2 ∧ motions log ≤ 1 ∧ (log.length = 2 → q.block.words = []) := by
  have ha0 : p.block.hasAxis = false := by
    obtain ⟨t, hb⟩ := hr
    obtain ⟨ws, e⟩ := ofString_ofWords hb
    rw [e, Bool.eq_false_iff, Ne, (counted_ofWords ws).axis]
    rw [e, ofWords_words] at ha
    rintro (h | h | h)
    · exact ha 'X' (by simp) h
    · exact ha 'Y' (by simp) h
    · exact ha 'Z' (by simp) h
  suffices H : (log = [] ∧ q = p) ∨
      (log.length = 1 ∧ Rest q ∧ q.block.hasAxis = false ∧ (q.block.words = [] ∨ Quiet q.block.words)) ∨
      (log.length = 2 ∧ motions log ≤ 1 ∧ q.block.words = []) by
    rcases H with ⟨rfl, -⟩ | ⟨h1, h2⟩ | ⟨h1, h2, h3⟩
    · simp [motions]
    · refine ⟨by omega, ?_, fun h => by omega⟩
      unfold motions
      exact (List.countP_le_length).trans h1.le
    · exact ⟨h1.le, h2, fun _ => h3⟩
  induction h with
  | start => exact .inl ⟨rfl, rfl⟩
  | @call log q n q' n' _ hw hx ih =>
    have hne := hc (q', n') (by simp)
    rcases ih fun e he => hc e (List.mem_append_left _ he) with ⟨rfl, rfl⟩ | ⟨h1, h2, h3, h4⟩ | ⟨-, -, h3⟩
    · obtain ⟨a, b, -⟩ := no_axes_call hr.rest hx hne ha0
      exact .inr (.inl ⟨rfl, hr.rest.parse hx, a, b⟩)
    · rcases h4 with h4 | h4
      · exact absurd h4 hw
      · obtain ⟨a, b, c⟩ := no_axes_call h2 hx hne h3
        obtain ⟨c1, c2⟩ := c h4
        refine .inr (.inr ⟨by simp [h1], ?_, c1⟩)
        unfold motions
        rw [List.countP_append]
        have e : List.countP (fun e => decide (Reported e.1.result)) [(q', n')] = 0 := by simp [c2]
        rw [e]
        exact (List.countP_le_length).trans h1.le
    · exact absurd h3 hw

/-- Words T and X only, the word T still there. -/
structure Stuck (p : Parser) : Prop where
  rest : Rest p
  group : p.block.hasModalGroupViolation = false
  letter : p.block.hasLetterWordViolation = false
  axis : p.block.hasAxis = true
  inside : p.block.hasOffset = false ∧ p.block.hasRadius = false
  only : ∀ w ∈ p.block.words, w.letter = 88 ∨ w.letter = 84
  tool : HasLetter p.block.words 'T'

theorem stuck_call {p : Parser} (h : Stuck p) (m : SimplifiedMotion) :
    ∃ p' m', p.parseBlock m = .ok (p', m') ∧ Stuck p' ∧ Reported p'.result := by
  obtain ⟨p', m', e⟩ := rest_total m h.rest h.inside
  have he := noCollision_counts h.rest e h.group h.letter
  have hcode : ∀ k, ¬ HasCode p.block.words 'G' k := by
    rintro k ⟨w, hw, hc, -⟩
    rcases h.only w hw with h | h <;> rw [h] at hc <;> revert hc <;> decide
  obtain ⟨q, hk, -, hx⟩ := parse_ok h.rest e he fun hd => hcode _ hd.1
  have hcq : ∀ k, ¬ HasCode q.block.words 'G' k := fun k ⟨w, hw, hc⟩ => hcode k ⟨w, hk.sub hw, hc⟩
  have hax : q.block.hasAxis = true := by rw [hk.counts]; exact h.axis
  refine ⟨p', m', e, ?_⟩
  rcases hx with ⟨_, hc, _⟩ | ⟨k, _, _, _, hc, _⟩ | ⟨_, hc, _⟩ | ⟨_, _, _, _, _, r, _, w⟩ | ⟨_, _, hc, _⟩
  · exact absurd hc (hcq _)
  · exact absurd hc (hcq _)
  · exact absurd hc (hcq _)
  · refine ⟨⟨h.rest.parse e, ?_, ?_, ?_, ?_, ?_, ?_⟩, .inl r⟩
    · rw [w, hk.counts]; exact h.group
    · rw [w, hk.counts]; exact h.letter
    · rw [w]; exact hax
    · rw [w, hk.counts]; exact h.inside
    · rw [w]; exact fun v hv => h.only v (hk.sub hv)
    · rw [w]
      refine (hk.hasLetter fun v hv hT => ?_).2 h.tool
      rcases hv with (⟨h', -⟩ | ⟨l, h1, h2⟩) | ⟨h', -⟩
      · unfold WithLetter at hT; rw [hT] at h'; revert h'; decide
      · unfold WithLetter at hT h2; rw [hT] at h2; revert h1 h2; cases l <;> decide
      · unfold WithLetter at hT; rw [hT] at h'; revert h'; decide
  · rw [hax] at hc; simp at hc

/-- Counterexamples to **C57**: after "X1 T1" the loop never ends, and every call makes a motion available; after "G0 G1" (an
error) it never ends either. -/
theorem loop_violated :
    (∃ p, Parser.reset.getBlock (codes "X1 T1") = .ok p ∧
      ∀ k, ∃ log q n, Calls p (.fresh 3) log q n ∧ log.length = k ∧ motions log = k ∧ q.block.words ≠ []) ∧
    (∃ p, Parser.reset.getBlock (codes "G0 G1") = .ok p ∧
      ∀ k, ∃ log q n, Calls p (.fresh 3) log q n ∧ log.length = k ∧ motions log = 0 ∧ q.block.words ≠ []) := by
  constructor
  · have hb := line (t := codes "X1 T1") (ws := [⟨88, 1, 0⟩, ⟨84, 1, 0⟩]) (by decide +kernel)
    have hg : Parser.reset.getBlock (codes "X1 T1") = .ok { Parser.reset with block := ofWords [⟨88, 1, 0⟩, ⟨84, 1, 0⟩] } := by
      unfold getBlock; rw [hb]; rfl
    refine ⟨_, hg, fun k => ?_⟩
    suffices H : ∃ log q n, Calls { Parser.reset with block := ofWords [⟨88, 1, 0⟩, ⟨84, 1, 0⟩] } (.fresh 3) log q n ∧
        log.length = k ∧ motions log = k ∧ Stuck q by
      obtain ⟨log, q, n, h1, h2, h3, h4⟩ := H
      refine ⟨log, q, n, h1, h2, h3, ?_⟩
      obtain ⟨w, hw, -⟩ := h4.tool
      exact List.ne_nil_of_mem hw
    induction k with
    | zero =>
      refine ⟨[], _, _, .start, rfl, rfl, ?_⟩
      refine ⟨⟨_, _, hb, rfl, [], by simp⟩, by decide +kernel, by decide +kernel, by decide +kernel,
        ⟨by decide +kernel, by decide +kernel⟩, ?_, ?_⟩
      · show ∀ w ∈ (ofWords [⟨88, 1, 0⟩, ⟨84, 1, 0⟩]).words, _
        rw [ofWords_words]
        decide
      · show HasLetter (ofWords [⟨88, 1, 0⟩, ⟨84, 1, 0⟩]).words 'T'
        rw [ofWords_words]
        decide
    | succ k ih =>
      obtain ⟨log, q, n, h1, h2, h3, h4⟩ := ih
      obtain ⟨q', n', e, hs, hr⟩ := stuck_call h4 n
      obtain ⟨w, hw, -⟩ := h4.tool
      refine ⟨_, q', n', h1.call (List.ne_nil_of_mem hw) e, by simp [h2], ?_, hs⟩
      unfold motions at h3 ⊢
      rw [List.countP_append, h3]
      simp [hr]
  · have hb := line (t := codes "G0 G1") (ws := [⟨71, 0, 0⟩, ⟨71, 1, 10⟩]) (by decide +kernel)
    have hg : Parser.reset.getBlock (codes "G0 G1") = .ok { Parser.reset with block := ofWords [⟨71, 0, 0⟩, ⟨71, 1, 10⟩] } := by
      unfold getBlock; rw [hb]; rfl
    refine ⟨_, hg, fun k => ?_⟩
    suffices H : ∃ log q n, Calls { Parser.reset with block := ofWords [⟨71, 0, 0⟩, ⟨71, 1, 10⟩] } (.fresh 3) log q n ∧
        log.length = k ∧ motions log = 0 ∧ q.block = ofWords [⟨71, 0, 0⟩, ⟨71, 1, 10⟩] by
      obtain ⟨log, q, n, h1, h2, h3, h4⟩ := H
      exact ⟨log, q, n, h1, h2, h3, by rw [h4, ofWords_words]; simp⟩
    induction k with
    | zero => exact ⟨[], _, _, .start, rfl, rfl, rfl⟩
    | succ k ih =>
      obtain ⟨log, q, n, h1, h2, h3, h4⟩ := ih
      have hv : q.block.hasModalGroupViolation = true := by rw [h4]; decide +kernel
      rcases parse_split q n with ⟨-, e⟩ | ⟨h, -⟩ | ⟨h, -⟩
      · refine ⟨_, _, _, h1.call (by rw [h4, ofWords_words]; simp) e, by simp [h2], ?_, h4⟩
        unfold motions at h3 ⊢
        rw [List.countP_append, h3]
        rfl
      · rw [hv] at h; simp at h
      · rw [hv] at h; simp at h

/-- A plain block with a line number, settings and a motion. -/
example : ∃ p p' m', Parser.reset.getBlock (codes "N10 G21 G90 G1 X5 Y2 F60 M3 S100") = .ok p ∧
    p.parseBlock (.fresh 3) = .ok (p', m') ∧ Calls p (.fresh 3) [(p', m')] p' m' ∧ p'.block.words = [] := by
  obtain ⟨p1, p', m', h1, h2, -, h4, h5, h6⟩ := runs_line .reset (t := "N10 G21 G90 G1 X5 Y2 F60 M3 S100")
    (ws := [⟨78, 10, 0⟩, ⟨71, 21, 210⟩, ⟨71, 90, 900⟩, ⟨71, 1, 10⟩, ⟨88, 5, 0⟩, ⟨89, 2, 0⟩, ⟨70, 60, 0⟩, ⟨77, 3, 30⟩, ⟨83, 100, 0⟩])
    (by decide +kernel) (by decide +kernel) (by decide +kernel) (by decide +kernel) (.fresh 3)
  have hc : Calls p1 (.fresh 3) [(p', m')] p' m' := Calls.start.call (by rw [h2]; simp) h5
  refine ⟨p1, p', m', h1, h5, hc, ?_⟩
  exact (loop_plain_partial h4.rest (by rw [h2]; exact ⟨by decide +kernel, by decide +kernel, by decide +kernel, by decide +kernel⟩)
    hc (by simpa using h6)).2.2 (by simp)

/-- A dwell: two calls, the second without a motion. -/
example : ∃ p p1 m1 p2 m2, Parser.reset.getBlock (codes "G4 P1") = .ok p ∧ p.parseBlock (.fresh 3) = .ok (p1, m1) ∧
    p1.parseBlock m1 = .ok (p2, m2) ∧ Reported p1.result ∧ (p1.block.words = [] ∨ p2.block.words = [] ∧ ¬ Reported p2.result) := by
  obtain ⟨p0, p1, m1, h1, h2, -, h4, h5, h6⟩ := runs_line .reset (t := "G4 P1")
    (ws := [⟨71, 4, 40⟩, ⟨80, 1, 0⟩]) (by decide +kernel) (by decide +kernel) (by decide +kernel) (by decide +kernel) (.fresh 3)
  have hb : p0.block.hasOffset = false ∧ p0.block.hasRadius = false ∧ p0.block.hasAxis = false := by
    obtain ⟨t, hb⟩ := h4
    obtain ⟨ws, e⟩ := ofString_ofWords hb
    rw [e, ofWords_words] at h2
    rw [e, h2]
    decide +kernel
  obtain ⟨q, k1, k2⟩ := no_axes_call h4.rest h5 h6 hb.2.2
  have hin : p1.block.hasOffset = false ∧ p1.block.hasRadius = false := by
    rw [(parse_words h5).1]; exact ⟨hb.1, hb.2.1⟩
  obtain ⟨p2, m2, e2⟩ := rest_total m1 (h4.rest.parse h5) hin
  have hn2 : NoCollision p2.error := by
    obtain ⟨v1, v2⟩ := parse_noViolation h5 h6
    refine noCollision_counts (h4.rest.parse h5) e2 ?_ ?_
    · rw [(parse_words h5).1]; exact v1
    · rw [(parse_words h5).1]; exact v2
  refine ⟨p0, p1, m1, p2, m2, h1, h5, e2, .inl ((dwell_partial h4.rest h5 h6).1 (by rw [h2]; decide +kernel)).2.2.2.1, ?_⟩
  rcases k1 with k1 | k1
  · exact .inl k1
  · exact .inr ((no_axes_call (h4.rest.parse h5) e2 hn2 q).2.2 k1)

end Moovr.Props
