import Verif.Lemmas.GCodeExec
/-!
# The motion of a block
-/
namespace Moovr.GCode
open Parser

/-- The state after a motion. -/
def moved (s : State) (next : Nat → ℚ) : State :=
  { s with
    nextPosition := fun i => if i < 3 then next i else s.nextPosition i
    currentPosition := fun i => if i < 3 then next i else s.currentPosition i }

/-- The motion made by `calcMotion`, for a position after it. -/
structure Motion (p : Parser) (m m' : SimplifiedMotion) : Prop where
  type : m'.type = m.type
  start : ∀ i, i < 3 → m'.trajectory.startPosition i = num (p.state.currentPosition i)
  delta : ∀ i, i < 3 → m'.trajectory.delta i = num (p.nextOf i - p.state.currentPosition i)
  peripherals : m'.peripherals = (p.calcPeripherals m).peripherals
  axes : m'.trajectory.arcAxis0 = (p.setArcAxis m).trajectory.arcAxis0 ∧
    m'.trajectory.arcAxis1 = (p.setArcAxis m).trajectory.arcAxis1
  speed : m'.vFeed = (p.calcSpeed m').vFeed ∧ m'.duration = (p.calcSpeed m').duration
  calculated : ∃ m1, p.setNext.calcArcCenter (p.setNext.setArcAxis (p.setNext.setDelta m)) = .ok m1 ∧
    m'.trajectory = (calcLength (p.setNext.calcArcAngles m1)).trajectory

theorem setArcAxis_fields (p : Parser) (m : SimplifiedMotion) : (p.setArcAxis m).type = m.type ∧
    (p.setArcAxis m).trajectory.delta = m.trajectory.delta ∧
    (p.setArcAxis m).trajectory.startPosition = m.trajectory.startPosition := by
  unfold setArcAxis
  split_ifs
  · cases p.state.modal.plane <;> exact ⟨rfl, rfl, rfl⟩
  · exact ⟨rfl, rfl, rfl⟩

theorem calcArcCenter_fields {p : Parser} {m m1 : SimplifiedMotion} (h : p.calcArcCenter m = .ok m1) : m1.type = m.type ∧
    m1.trajectory.delta = m.trajectory.delta ∧ m1.trajectory.startPosition = m.trajectory.startPosition ∧
    m1.trajectory.arcAxis0 = m.trajectory.arcAxis0 ∧ m1.trajectory.arcAxis1 = m.trajectory.arcAxis1 := by
  unfold calcArcCenter at h
  split_ifs at h <;> first | (simp at h; done) | (rw [← Except.ok.inj h]; exact ⟨rfl, rfl, rfl, rfl, rfl⟩)

theorem calcArcAngles_fields (p : Parser) (m : SimplifiedMotion) : (p.calcArcAngles m).type = m.type ∧
    (p.calcArcAngles m).trajectory.delta = m.trajectory.delta ∧
    (p.calcArcAngles m).trajectory.startPosition = m.trajectory.startPosition ∧
    (p.calcArcAngles m).trajectory.arcAxis0 = m.trajectory.arcAxis0 ∧
    (p.calcArcAngles m).trajectory.arcAxis1 = m.trajectory.arcAxis1 := by
  unfold calcArcAngles
  split_ifs <;> exact ⟨rfl, rfl, rfl, rfl, rfl⟩

theorem calcSpeed_fields (p : Parser) (m : SimplifiedMotion) : (p.calcSpeed m).type = m.type ∧
    (p.calcSpeed m).trajectory = m.trajectory := by
  unfold calcSpeed
  split <;> exact ⟨rfl, rfl⟩

theorem calcSpeed_congr (p q : Parser) (m m' : SimplifiedMotion) (hs : p.state.letterValue = q.state.letterValue)
    (hm : p.state.modal = q.state.modal) (ht : m.type = m'.type) (hl : m.trajectory.length = m'.trajectory.length) :
    (p.calcSpeed m).vFeed = (q.calcSpeed m').vFeed ∧ (p.calcSpeed m).duration = (q.calcSpeed m').duration := by
  unfold calcSpeed inMm
  rw [ht, hs, hm, hl]
  cases m'.type <;> exact ⟨rfl, rfl⟩

theorem setNext_current (p : Parser) : p.setNext.state.currentPosition = p.state.currentPosition := rfl

theorem calcMotion_ok {p p' : Parser} {m m' : SimplifiedMotion} (h : p.calcMotion m = .ok (p', m')) :
    p'.block = p.block ∧ p'.result = p.result ∧ p'.error = p.error ∧ p'.state = moved p.state p.nextOf ∧ Motion p m m' := by
  unfold calcMotion at h
  simp only at h
  rcases hc : p.setNext.calcArcCenter (p.setNext.setArcAxis (p.setNext.setDelta m)) with e | m1
  · rw [hc] at h; simp at h
  · rw [hc] at h
    simp only [Except.ok.injEq, Prod.mk.injEq] at h
    obtain ⟨h1, h2⟩ := h
    obtain ⟨c1, c2, c3, c4, c5⟩ := calcArcCenter_fields hc
    obtain ⟨a1, a2, a3⟩ := setArcAxis_fields p.setNext (p.setNext.setDelta m)
    obtain ⟨d1, d2, d3, d4, d5⟩ := calcArcAngles_fields p.setNext m1
    obtain ⟨s1, s2⟩ := calcSpeed_fields p.setNext (calcLength (p.setNext.calcArcAngles m1))
    have ht : m'.type = m.type := by
      rw [← h2]; exact s1.trans (d1.trans (c1.trans a1))
    have htr : m'.trajectory = (calcLength (p.setNext.calcArcAngles m1)).trajectory := by
      rw [← h2]; exact s2
    have hdel : m'.trajectory.delta = (p.setNext.setDelta m).trajectory.delta := by
      rw [htr]; exact d2.trans (c2.trans a2)
    have hst : m'.trajectory.startPosition = (p.setNext.setDelta m).trajectory.startPosition := by
      rw [htr]; exact d3.trans (c3.trans a3)
    have hax : (p.setNext.setArcAxis (p.setNext.setDelta m)).trajectory.arcAxis0 = (p.setArcAxis m).trajectory.arcAxis0 ∧
        (p.setNext.setArcAxis (p.setNext.setDelta m)).trajectory.arcAxis1 = (p.setArcAxis m).trajectory.arcAxis1 := by
      unfold setArcAxis
      show (if isArc m = true then _ else _ : SimplifiedMotion).trajectory.arcAxis0 = _ ∧ _
      have : isArc (p.setNext.setDelta m) = isArc m := rfl
      rw [this]
      have hp : p.setNext.state.modal.plane = p.state.modal.plane := rfl
      rw [hp]
      split_ifs
      · cases p.state.modal.plane <;> exact ⟨rfl, rfl⟩
      · exact ⟨rfl, rfl⟩
    refine ⟨?_, ?_, ?_, ?_, ⟨ht, ?_, ?_, ?_, ?_, ?_, m1, hc, htr⟩⟩
    · rw [← h1]; rfl
    · rw [← h1]; rfl
    · rw [← h1]; rfl
    · rw [← h1]
      have : (fun i => if i < nAxis then p.setNext.state.nextPosition i else p.setNext.state.currentPosition i) =
          fun i => if i < 3 then p.nextOf i else p.state.currentPosition i := by
        funext i
        by_cases hi : i < 3
        · rw [if_pos hi, if_pos (show i < nAxis from hi)]
          exact if_pos (show i < nAxis from hi)
        · rw [if_neg hi, if_neg (show ¬ i < nAxis from hi)]
          rfl
      unfold updatePosition
      simp only [this]
      rfl
    · intro i hi
      rw [hst]
      exact if_pos (show i < nAxis from hi)
    · intro i hi
      rw [hdel]
      refine (if_pos (show i < nAxis from hi)).trans ?_
      have : p.setNext.state.nextPosition i = p.nextOf i := if_pos (show i < nAxis from hi)
      rw [this]
      rfl
    · rw [← h2]; rfl
    · rw [htr]
      exact ⟨(d4.trans c4).trans hax.1, (d5.trans c5).trans hax.2⟩
    · have := calcSpeed_congr p.setNext p (calcLength (p.setNext.calcArcAngles m1)) m' rfl rfl
        (by rw [ht]; exact d1.trans (c1.trans a1)) (by rw [htr])
      rw [← h2] at this ⊢
      exact this

theorem moveThen_ok {p p' : Parser} {m m' : SimplifiedMotion} {t : MotionType} {f : Parser → Parser}
    (h : p.moveThen m t f = .ok (p', m')) :
    ∃ q, p' = f q ∧ q.block = p.block ∧ q.result = p.result ∧ q.error = p.error ∧ q.state = moved p.state p.nextOf ∧
      Motion p { m with type := t } m' := by
  unfold moveThen at h
  rcases hc : p.calcMotion { m with type := t } with e | ⟨q, m1⟩
  · rw [hc] at h; simp [Except.map] at h
  · rw [hc] at h
    simp only [Except.map, Except.ok.injEq, Prod.mk.injEq] at h
    obtain ⟨h1, h2⟩ := h
    subst h2
    exact ⟨q, h1.symm, calcMotion_ok hc⟩

/-! ## Cases of `execute` -/

/-- What a block without collisions and dwell does, in the state `q` after its settings. -/
inductive Exec (q : Parser) (m : SimplifiedMotion) (p' : Parser) (m' : SimplifiedMotion) : Prop
  /-- G53 -/
  | machine (t : MotionType)
      (code : HasCode q.block.words 'G' 530)
      (type : (HasCode q.block.words 'G' 0 ∧ t = .traverse) ∨ (¬ HasCode q.block.words 'G' 0 ∧ t = .feedLinear))
      (state : p'.state = { moved q.state (q.setModal { q.state.modal with coordinateSet := .G53 }).nextOf with
        modal := q.state.modal })
      (motion : Motion (q.setModal { q.state.modal with coordinateSet := .G53 }) { m with type := t } m')
      (result : p'.result = .okContextUpdateOnly) (error : p'.error = .none) (words : p'.block.words = [])
      (counts : p'.block = { q.block with words := p'.block.words })
  /-- G0, G1, G2 or G3 -/
  | named (k : Nat) (mode : MotionMode)
      (table : (k, mode) ∈ [(0, MotionMode.G0), (10, .G1), (20, .G2), (30, .G3)])
      (nomachine : ¬ HasCode q.block.words 'G' 530)
      (code : HasCode q.block.words 'G' k)
      (fed : mode = .G1 → 0 < q.state.letterValue .F)
      (state : p'.state = { moved q.state q.nextOf with
        modal := { q.state.modal with motion := mode }
        letterValue := fun l => if l = .F ∧ mode = .G1 ∧ q.state.modal.feedRate = .G93 then 0 else q.state.letterValue l })
      (motion : Motion (q.setModal { q.state.modal with motion := mode }) { m with type := typeOf mode } m')
      (result : p'.result = .okContextUpdateAndMotion) (error : p'.error = .none)
      (words : ∃ w, Code 'G' k w ∧ q.block.words.Perm (w :: p'.block.words))
      (counts : p'.block = { q.block with words := p'.block.words })
  /-- G1 without a feed rate -/
  | unfed
      (nomachine : ¬ HasCode q.block.words 'G' 530)
      (code : HasCode q.block.words 'G' 10)
      (unfed : ¬ 0 < q.state.letterValue .F)
      (state : p'.state = { q.state with modal := { q.state.modal with motion := .G1 } })
      (motion : m' = { m with type := .feedLinear })
      (result : p'.result = .error) (error : p'.error = .invalidFeedrate) (words : p'.block.words = [])
      (counts : p'.block = { q.block with words := p'.block.words })
  /-- axis words only -/
  | again
      (nomachine : ¬ HasCode q.block.words 'G' 530)
      (nocode : ∀ k ∈ [0, 10, 20, 30], ¬ HasCode q.block.words 'G' k)
      (axes : q.block.hasAxis = true)
      (state : p'.state = moved q.state q.nextOf)
      (motion : Motion q { m with type := typeOf q.state.modal.motion } m')
      (result : p'.result = .okContextUpdateAndMotion) (error : p'.error = .none) (words : p'.block = q.block)
  /-- no motion -/
  | nothing
      (nomachine : ¬ HasCode q.block.words 'G' 530)
      (nocode : ∀ k ∈ [0, 10, 20, 30], ¬ HasCode q.block.words 'G' k)
      (axes : q.block.hasAxis = false)
      (state : p'.state = q.state)
      (motion : m' = m)
      (result : p'.result = .okContextUpdateOnly) (error : p'.error = .none) (words : p'.block.words = [])
      (counts : p'.block = { q.block with words := p'.block.words })

theorem search2_ok {b : Block} {l : Char} {k i : Nat} (h : b.search2 l k = some i) : HasCode b.words l k := (search2_some h).1

theorem execute_cases {q p' : Parser} {m m' : SimplifiedMotion} (h : execute q m = .ok (p', m')) : Exec q m p' m' := by
  unfold execute at h
  rcases h53 : q.block.search2 'G' 530 with _ | i
  · have n53 := search2_none.1 h53
    rw [h53] at h
    simp only at h
    rcases hm : q.modalMove m with _ | r
    · rw [hm] at h
      simp only [Except.ok.injEq, Prod.mk.injEq] at h
      obtain ⟨rfl, rfl⟩ := h
      unfold modalMove at hm
      rcases h0 : q.block.search2 'G' 0 with _ | _ <;> rw [h0] at hm <;> simp only at hm
      swap; · cases hm
      rcases h1 : q.block.search2 'G' 10 with _ | _ <;> rw [h1] at hm <;> simp only at hm
      swap; · split_ifs at hm
      rcases h2 : q.block.search2 'G' 20 with _ | _ <;> rw [h2] at hm <;> simp only at hm
      swap; · cases hm
      rcases h3 : q.block.search2 'G' 30 with _ | _ <;> rw [h3] at hm <;> simp only at hm
      swap; · cases hm
      split_ifs at hm with ha
      refine .nothing n53 ?_ (by simpa using ha) rfl rfl rfl rfl rfl rfl
      intro k hk
      simp only [List.mem_cons, List.not_mem_nil, or_false] at hk
      rcases hk with rfl | rfl | rfl | rfl
      exacts [search2_none.1 h0, search2_none.1 h1, search2_none.1 h2, search2_none.1 h3]
    · rw [hm] at h
      simp only at h
      subst h
      unfold modalMove at hm
      rcases h0 : q.block.search2 'G' 0 with _ | i <;> rw [h0] at hm <;> simp only at hm
      swap
      · obtain ⟨r, e, hb, hr, he, hs, hmo⟩ := moveThen_ok (Option.some.inj hm)
        obtain ⟨hc, w, hw, -, hp⟩ := search2_some h0
        refine .named 0 .G0 (by simp) n53 hc (by simp) ?_ hmo (by rw [e]; rfl) (by rw [e]; rfl) ⟨w, hw, ?_⟩ ?_
        · rw [e]
          show r.state = _
          rw [hs]
          simp only [reduceCtorEq, false_and, and_false, if_false]
          rfl
        · rw [e]
          show q.block.words.Perm (w :: (r.block.removeWord i).words)
          rw [hb]; exact hp
        · rw [e]
          show r.block.removeWord i = { q.block with words := (r.block.removeWord i).words }
          rw [hb]; exact removeWord_counts _ _
      rcases h1 : q.block.search2 'G' 10 with _ | i <;> rw [h1] at hm <;> simp only at hm
      swap
      · obtain ⟨hc, w, hw, -, hp⟩ := search2_some h1
        split_ifs at hm with hF
        · obtain ⟨r, e, hb, hr, he, hs, hmo⟩ := moveThen_ok (Option.some.inj hm)
          refine .named 10 .G1 (by simp) n53 hc (fun _ => hF) ?_ hmo (by rw [e]; rfl) (by rw [e]; rfl) ⟨w, hw, ?_⟩ ?_
          · rw [e]
            show (if r.state.modal.feedRate = .G93 then (r.removeWord i).setLetter .F 0 else r.removeWord i).state = _
            have hf : r.state.modal.feedRate = q.state.modal.feedRate := by rw [hs]; rfl
            rw [hf]
            by_cases h93 : q.state.modal.feedRate = .G93
            · rw [if_pos h93]
              simp only [setLetter, removeWord, hs]
              simp only [h93, and_true]
              rfl
            · rw [if_neg h93]
              show r.state = _
              rw [hs]
              simp only [h93, and_false, if_false]
              rfl
          · rw [e]
            have : ((if r.state.modal.feedRate = .G93 then (r.removeWord i).setLetter .F 0 else r.removeWord i).okMotion).block =
                r.block.removeWord i := by split_ifs <;> rfl
            refine hp.trans ?_
            rw [← show r.block = q.block from hb, ← this]
            rfl
          · rw [e]
            have : ((if r.state.modal.feedRate = .G93 then (r.removeWord i).setLetter .F 0 else r.removeWord i).okMotion).block =
                r.block.removeWord i := by split_ifs <;> rfl
            have h2 : r.block.removeWord i = { q.block with words := (r.block.removeWord i).words } := by
              rw [hb]; exact removeWord_counts _ _
            rw [← this] at h2
            exact h2
        · have := Except.ok.inj (Option.some.inj hm)
          simp only [Prod.mk.injEq] at this
          obtain ⟨rfl, rfl⟩ := this
          exact .unfed n53 hc hF rfl rfl rfl rfl rfl rfl
      rcases h2 : q.block.search2 'G' 20 with _ | i <;> rw [h2] at hm <;> simp only at hm
      swap
      · obtain ⟨r, e, hb, hr, he, hs, hmo⟩ := moveThen_ok (Option.some.inj hm)
        obtain ⟨hc, w, hw, -, hp⟩ := search2_some h2
        refine .named 20 .G2 (by simp) n53 hc (by simp) ?_ hmo (by rw [e]; rfl) (by rw [e]; rfl) ⟨w, hw, ?_⟩ ?_
        · rw [e]
          show r.state = _
          rw [hs]
          simp only [reduceCtorEq, false_and, and_false, if_false]
          rfl
        · rw [e]
          show q.block.words.Perm (w :: (r.block.removeWord i).words)
          rw [hb]; exact hp
        · rw [e]
          show r.block.removeWord i = { q.block with words := (r.block.removeWord i).words }
          rw [hb]; exact removeWord_counts _ _
      rcases h3 : q.block.search2 'G' 30 with _ | i <;> rw [h3] at hm <;> simp only at hm
      swap
      · obtain ⟨r, e, hb, hr, he, hs, hmo⟩ := moveThen_ok (Option.some.inj hm)
        obtain ⟨hc, w, hw, -, hp⟩ := search2_some h3
        refine .named 30 .G3 (by simp) n53 hc (by simp) ?_ hmo (by rw [e]; rfl) (by rw [e]; rfl) ⟨w, hw, ?_⟩ ?_
        · rw [e]
          show r.state = _
          rw [hs]
          simp only [reduceCtorEq, false_and, and_false, if_false]
          rfl
        · rw [e]
          show q.block.words.Perm (w :: (r.block.removeWord i).words)
          rw [hb]; exact hp
        · rw [e]
          show r.block.removeWord i = { q.block with words := (r.block.removeWord i).words }
          rw [hb]; exact removeWord_counts _ _
      split_ifs at hm with ha
      obtain ⟨r, e, hb, hr, he, hs, hmo⟩ := moveThen_ok (Option.some.inj hm)
      refine .again n53 ?_ ha ?_ hmo (by rw [e]; rfl) (by rw [e]; rfl) ?_
      · intro k hk
        simp only [List.mem_cons, List.not_mem_nil, or_false] at hk
        rcases hk with rfl | rfl | rfl | rfl
        exacts [search2_none.1 h0, search2_none.1 h1, search2_none.1 h2, search2_none.1 h3]
      · rw [e]; exact hs
      · rw [e]; exact hb
  · have y53 := search2_ok h53
    rw [h53] at h
    simp only at h
    set q0 := q.setModal { q.state.modal with coordinateSet := .G53 } with hq0
    have fin : ∀ (r : Parser) (g : Parser → Parser), r.state = moved q0.state q0.nextOf → (g r).state = r.state →
        (((g r).removeWord i).setModal { (g r).state.modal with coordinateSet := q.state.modal.coordinateSet }).leftOver.state =
        { moved q.state q0.nextOf with modal := q.state.modal } := by
      intro r g hs hg
      show { (g r).state with modal := { (g r).state.modal with coordinateSet := q.state.modal.coordinateSet } } = _
      rw [hg, hs]
      rfl
    have cnt : ∀ r : Parser, r.block = q0.block → ({ r.block with words := [] } : Block) = { q.block with words := [] } := by
      intro r h; rw [h]; rfl
    have clr : ∀ (b : Block) (k : Nat), ({ b.removeWord k with words := [] } : Block) = { b with words := [] } := by
      intro b k; rw [removeWord_counts]
    rcases hr : q.machineMove m i with e | ⟨p1, m1⟩
    · rw [hr] at h; simp [Except.map] at h
    · rw [hr] at h
      simp only [Except.map, Except.ok.injEq, Prod.mk.injEq] at h
      obtain ⟨h1, rfl⟩ := h
      unfold machineMove at hr
      simp only at hr
      have hbq : q0.block = q.block := rfl
      rw [← hq0, hbq] at hr
      rcases h0 : q.block.search2 'G' 0 with _ | j
      · rw [h0] at hr
        simp only at hr
        rcases h10 : q.block.search2 'G' 10 with _ | j
        · rw [h10] at hr
          obtain ⟨r, e, hb, -, -, hs, hmo⟩ := moveThen_ok hr
          refine .machine .feedLinear y53 (.inr ⟨search2_none.1 h0, rfl⟩) ?_ hmo (by rw [← h1]; rfl) (by rw [← h1]; rfl)
            (by rw [← h1]; rfl) (by rw [← h1, e]; exact (clr _ i).trans (cnt r hb))
          rw [← h1, e]
          exact fin r id hs rfl
        · rw [h10] at hr
          obtain ⟨r, e, hb, -, -, hs, hmo⟩ := moveThen_ok hr
          refine .machine .feedLinear y53 (.inr ⟨search2_none.1 h0, rfl⟩) ?_ hmo (by rw [← h1]; rfl) (by rw [← h1]; rfl)
            (by rw [← h1]; rfl) (by rw [← h1, e]; exact (clr _ i).trans ((clr _ j).trans (cnt r hb)))
          rw [← h1, e]
          exact fin r (fun p => p.removeWord j) hs rfl
      · rw [h0] at hr
        obtain ⟨r, e, hb, -, -, hs, hmo⟩ := moveThen_ok hr
        refine .machine .traverse y53 (.inl ⟨search2_ok h0, rfl⟩) ?_ hmo (by rw [← h1]; rfl) (by rw [← h1]; rfl)
          (by rw [← h1]; rfl) (by rw [← h1, e]; exact (clr _ i).trans ((clr _ j).trans (cnt r hb)))
        rw [← h1, e]
        exact fin r (fun p => p.removeWord j) hs rfl

end Moovr.GCode
