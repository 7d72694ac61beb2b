import Verif.Lemmas.GCodeSettings
/-!
# `parseBlock` up to the motion
-/
namespace Moovr.GCode
open Parser

section chains
variable (ws : List Word) (m : Modal)

theorem chain_spindle : chainModal ws 'M' spindleTable m = { m with spindle := pick ws 'M' spindleModes m.spindle } := by
  simp only [chainModal, pick, spindleTable, spindleModes]; split_ifs <;> rfl
theorem chain_override :
    chainModal ws 'M' overrideTable m = { m with manualOverride := pick ws 'M' overrideModes m.manualOverride } := by
  simp only [chainModal, pick, overrideTable, overrideModes]; split_ifs <;> rfl
theorem chain_plane : chainModal ws 'G' planeTable m = { m with plane := pick ws 'G' planeModes m.plane } := by
  simp only [chainModal, pick, planeTable, planeModes]; split_ifs <;> rfl
theorem chain_unit : chainModal ws 'G' unitTable m = { m with unit := pick ws 'G' unitModes m.unit } := by
  simp only [chainModal, pick, unitTable, unitModes]; split_ifs <;> rfl
theorem chain_distance : chainModal ws 'G' distanceTable m = { m with distance := pick ws 'G' distanceModes m.distance } := by
  simp only [chainModal, pick, distanceTable, distanceModes]; split_ifs <;> rfl
theorem chain_wcs : chainModal ws 'G' wcsTable m = { m with coordinateSet := pick ws 'G' coordModes m.coordinateSet } := by
  simp only [chainModal, pick, wcsTable, coordModes]; split_ifs <;> rfl
end chains

theorem coolant_spec (p : Parser) :
    Keeps (fun w => w.letter = 'M'.toNat ∧ w.intNumber ∈ [70, 80, 90]) p p.setCoolantMode ∧
    p.setCoolantMode.state = { p.state with modal := { p.state.modal with
      coolantFlood := pick p.block.words 'M' floodModes p.state.modal.coolantFlood
      coolantMist := pick p.block.words 'M' mistModes p.state.modal.coolantMist } } := by
  rw [setCoolantMode_eq]
  obtain ⟨k1, s1⟩ := chain_spec p 'M' [(70, fun m => { m with coolantFlood := .M7 })]
  generalize chain p 'M' [(70, fun m => { m with coolantFlood := .M7 })] = q1 at *
  obtain ⟨k2, s2⟩ := chain_spec q1 'M' [(80, fun m => { m with coolantMist := .M8 })]
  generalize chain q1 'M' [(80, fun m => { m with coolantMist := .M8 })] = q2 at *
  obtain ⟨k3, s3⟩ := chain_spec q2 'M' [(90, fun m => { m with coolantFlood := .M9, coolantMist := .M9 })]
  generalize chain q2 'M' [(90, fun m => { m with coolantFlood := .M9, coolantMist := .M9 })] = q3 at *
  have c1 : HasCode q1.block.words 'M' 80 ↔ HasCode p.block.words 'M' 80 :=
    k1.hasCode (by rintro w ⟨-, h1⟩ ⟨-, h2⟩; rw [h2] at h1; simp at h1)
  have c2 : HasCode q2.block.words 'M' 90 ↔ HasCode p.block.words 'M' 90 :=
    (k2.hasCode (by rintro w ⟨-, h1⟩ ⟨-, h2⟩; rw [h2] at h1; simp at h1)).trans
      (k1.hasCode (by rintro w ⟨-, h1⟩ ⟨-, h2⟩; rw [h2] at h1; simp at h1))
  refine ⟨((k1.trans k2).trans k3).mono ?_, ?_⟩
  · rintro w ((⟨h1, h2⟩ | ⟨h1, h2⟩) | ⟨h1, h2⟩) <;> refine ⟨h1, ?_⟩ <;>
      simp only [List.map_cons, List.map_nil, List.mem_singleton] at h2 <;> simp [h2]
  · rw [s3, s2, s1]
    simp only [chainModal, pick, floodModes, mistModes]
    by_cases h7 : HasCode p.block.words 'M' 70 <;> by_cases h8 : HasCode p.block.words 'M' 80 <;>
      by_cases h9 : HasCode p.block.words 'M' 90 <;> simp only [c1, c2, h7, h8, h9, if_true, if_false]

/-- Disjoint kinds of words. -/
macro "kinds" : tactic => `(tactic| (intro w hw; simp [WithLetter, Code, charOf] at hw ⊢; first | omega | (intros; omega)))

set_option maxHeartbeats 1000000 in
theorem settings1_spec (p : Parser) (hc : Shows p.block p.block.words) :
    Keeps Kind1 p p.settings1 ∧ Ready1 p.block.words p.state p.settings1.state := by
  unfold settings1
  obtain ⟨k1, m1, o1, r1⟩ := getWords_spec [Letter.X, .Y, .Z, .I, .J, .K, .R] (by decide) p
  rw [← getAxisOffsetRadiusWords_eq p hc] at k1 m1 o1 r1
  generalize p.getAxisOffsetRadiusWords = q1 at *
  obtain ⟨k2, m2, o2⟩ := getLineNumberWord_spec q1
  generalize q1.getLineNumberWord = q2 at *
  obtain ⟨b3, s3⟩ := setFeedrateMode_spec q2
  generalize q2.setFeedrateMode = q3 at *
  have k3 : Keeps (fun _ => False) q2 q3 := ⟨by rw [b3], ⟨[], by simp, by simp [b3]⟩, by rw [s3], by rw [s3], by rw [s3]⟩
  obtain ⟨k4, m4, o4, f4⟩ := setFeedrateValue_spec q3
  generalize q3.setFeedrateValue = q4 at *
  obtain ⟨k5, m5, o5, f5⟩ := setSpindleSpeed_spec q4
  generalize q4.setSpindleSpeed = q5 at *
  have k6 := (chain_spec q5 'M' spindleTable).1
  have s6 := (chain_spec q5 'M' spindleTable).2
  rw [← setSpindleMode_eq, chain_spindle] at s6
  rw [← setSpindleMode_eq] at k6
  generalize q5.setSpindleMode = q6 at *
  obtain ⟨k7, s7⟩ := coolant_spec q6
  generalize q6.setCoolantMode = q7 at *
  have k8 := (chain_spec q7 'M' overrideTable).1
  have s8 := (chain_spec q7 'M' overrideTable).2
  rw [← setOverrideMode_eq, chain_override] at s8
  rw [← setOverrideMode_eq] at k8
  generalize q7.setOverrideMode = q8 at *
  have k12 := k1.trans k2
  have k13 := k12.trans k3
  have k14 := k13.trans k4
  have k15 := k14.trans k5
  have k16 := k15.trans k6
  have k17 := k16.trans k7
  have k18 := k17.trans k8
  -- the words each step sees
  have g93 : ∀ k, HasCode q2.block.words 'G' k ↔ HasCode p.block.words 'G' k := fun k => k12.hasCode (by kinds)
  have vF : ∀ x, HasVal q3.block.words 'F' x ↔ HasVal p.block.words 'F' x := fun x => k13.hasVal (by kinds) x
  have lF : HasLetter q3.block.words 'F' ↔ HasLetter p.block.words 'F' := k13.hasLetter (by kinds)
  have vS : ∀ x, HasVal q4.block.words 'S' x ↔ HasVal p.block.words 'S' x := fun x => k14.hasVal (by kinds) x
  have lS : HasLetter q4.block.words 'S' ↔ HasLetter p.block.words 'S' := k14.hasLetter (by kinds)
  have cM5 : ∀ k, HasCode q5.block.words 'M' k ↔ HasCode p.block.words 'M' k := fun k => k15.hasCode (by kinds)
  have cM6 : ∀ k ∈ [70, 80, 90], HasCode q6.block.words 'M' k ↔ HasCode p.block.words 'M' k := by
    intro k hk
    refine (k6.hasCode ?_).trans (cM5 k)
    rintro w ⟨-, h1⟩ ⟨-, h2⟩
    rw [h2] at h1
    simp [spindleTable] at h1 hk; omega
  have cM7 : ∀ k ∈ [480, 490], HasCode q7.block.words 'M' k ↔ HasCode p.block.words 'M' k := by
    intro k hk
    refine (k7.hasCode ?_).trans ((k6.hasCode ?_).trans (cM5 k))
    · rintro w ⟨-, h1⟩ ⟨-, h2⟩
      rw [h2] at h1
      simp at h1 hk; omega
    · rintro w ⟨-, h1⟩ ⟨-, h2⟩
      rw [h2] at h1
      simp [spindleTable] at h1 hk; omega
  -- letter values at the end
  have lv : q8.state.letterValue = q5.state.letterValue := by rw [s8, s7, s6]
  have l2 : ∀ l, l ≠ .N → l ∉ [Letter.X, .Y, .Z, .I, .J, .K, .R] → q2.state.letterValue l = p.state.letterValue l :=
    fun l h1 h2 => (o2 l h1).trans (o1 l h2)
  have l3 : ∀ l, l ≠ .F → q3.state.letterValue l = q2.state.letterValue l := by
    intro l h; rw [s3]; simp [h]
  refine ⟨k18.mono ?_, ?_, ?_, ?_, ?_, ?_⟩
  · rintro w (((((((⟨l, h1, h2⟩ | h) | h) | h) | h) | ⟨h1, h2⟩) | ⟨h1, h2⟩) | ⟨h1, h2⟩)
    · exact .inr ⟨l, List.mem_append_left [Letter.N, Letter.F, Letter.S] h1, h2⟩
    · exact .inr ⟨.N, by simp, h⟩
    · exact h.elim
    · exact .inr ⟨.F, by simp, h⟩
    · exact .inr ⟨.S, by simp, h⟩
    · exact .inl ⟨h1, by simp [spindleTable] at h2 ⊢; omega⟩
    · exact .inl ⟨h1, by simp at h2 ⊢; omega⟩
    · exact .inl ⟨h1, by simp [overrideTable] at h2 ⊢; omega⟩
  · have e5 : q5.state.modal = { p.state.modal with feedRate := pick p.block.words 'G' feedModes p.state.modal.feedRate } := by
      rw [m5, m4, s3]
      simp only [m2, m1, pick, feedModes]
      by_cases h1 : HasCode p.block.words 'G' 930 <;> by_cases h2 : HasCode p.block.words 'G' 940 <;>
        simp only [g93, h1, h2, if_true, if_false]
    rw [s8, s7, s6]
    simp only [e5]
    rw [pick_congr (ws := q7.block.words) (ws' := p.block.words) (t := overrideModes)
        fun k v h => cM7 k (by simp [overrideModes] at h ⊢; omega),
      pick_congr (ws := q6.block.words) (ws' := p.block.words) (t := floodModes)
        fun k v h => cM6 k (by simp [floodModes] at h ⊢; omega),
      pick_congr (ws := q6.block.words) (ws' := p.block.words) (t := mistModes)
        fun k v h => cM6 k (by simp [mistModes] at h ⊢; omega),
      pick_congr (ws := q5.block.words) (ws' := p.block.words) (t := spindleModes) fun k v _ => cM5 k]
  · intro l hl
    refine reads_mono (r1 l hl) (fun _ => Iff.rfl) rfl ?_
    have hn : l ≠ .N ∧ l ≠ .F ∧ l ≠ .S := by
      simp only [List.mem_cons, List.not_mem_nil, or_false] at hl
      rcases hl with rfl | rfl | rfl | rfl | rfl | rfl | rfl <;> simp
    rw [lv, o5 l hn.2.2, o4 l hn.2.1, l3 l hn.2.1, o2 l hn.1]
  · rw [lv, o5 .F (by simp)]
    have e3 : q3.state.letterValue .F = if HasCode p.block.words 'G' 930 ∨ HasCode p.block.words 'G' 940 then 0
        else p.state.letterValue .F := by
      rw [s3]
      simp only [true_and, g93]
      split_ifs
      · rfl
      · exact l2 .F (by simp) (by decide)
    rcases f4 with ⟨x, h1, h2, h3⟩ | ⟨h1, h2⟩
    · exact .inl ⟨x, h1, (vF x).1 h2, h3⟩
    · refine .inr ⟨fun h => ?_, fun h => ?_, fun h => ?_⟩
      · obtain ⟨x, h3, h4⟩ := h2 (lF.2 h)
        exact ⟨x, h3, (vF x).1 h4⟩
      · rw [h1, e3, if_pos h]
      · rw [h1, e3, if_neg h]
  · rw [lv]
    rcases f5 with ⟨x, h1, h2, h3⟩ | ⟨h1, h2⟩
    · exact .inl ⟨x, h1, (vS x).1 h2, h3⟩
    · refine .inr ⟨fun h => ?_, ?_⟩
      · obtain ⟨x, h3, h4⟩ := h2 (lS.2 h)
        exact ⟨x, h3, (vS x).1 h4⟩
      · rw [h1, o4 .S (by simp), l3 .S (by simp), l2 .S (by simp) (by decide)]
  · intro l hl
    have hn : l ≠ .N ∧ l ≠ .F ∧ l ≠ .S ∧ l ∉ [Letter.X, .Y, .Z, .I, .J, .K, .R] := by
      simp only [List.mem_cons, List.not_mem_nil, or_false] at hl
      rcases hl with rfl | rfl | rfl <;> simp
    rw [lv, o5 l hn.2.2.1, o4 l hn.2.1, l3 l hn.2.1, l2 l hn.1 hn.2.2.2]

theorem settings2_spec (p : Parser) :
    Keeps Kind2 p p.settings2 ∧ p.settings2.state = { p.state with modal := { p.state.modal with
      plane := pick p.block.words 'G' planeModes p.state.modal.plane
      unit := pick p.block.words 'G' unitModes p.state.modal.unit
      coordinateSet := pick p.block.words 'G' coordModes p.state.modal.coordinateSet
      distance := pick p.block.words 'G' distanceModes p.state.modal.distance } } := by
  unfold settings2
  have k1 := (chain_spec p 'G' planeTable).1
  have s1 := (chain_spec p 'G' planeTable).2
  rw [← setArcPlane_eq, chain_plane] at s1
  rw [← setArcPlane_eq] at k1
  generalize p.setArcPlane = q1 at *
  have k2 := (chain_spec q1 'G' unitTable).1
  have s2 := (chain_spec q1 'G' unitTable).2
  rw [← setUnitsMode_eq, chain_unit] at s2
  rw [← setUnitsMode_eq] at k2
  generalize q1.setUnitsMode = q2 at *
  have k3 := (chain_spec q2 'G' wcsTable).1
  have s3 := (chain_spec q2 'G' wcsTable).2
  rw [← setWCSMode_eq, chain_wcs] at s3
  rw [← setWCSMode_eq] at k3
  generalize q2.setWCSMode = q3 at *
  have k4 := (chain_spec q3 'G' distanceTable).1
  have s4 := (chain_spec q3 'G' distanceTable).2
  rw [← setDistanceMode_eq, chain_distance] at s4
  rw [← setDistanceMode_eq] at k4
  generalize q3.setDistanceMode = q4 at *
  have d1 : ∀ k, k ∉ [170, 180, 190] → (HasCode q1.block.words 'G' k ↔ HasCode p.block.words 'G' k) := by
    intro k hk
    refine k1.hasCode ?_
    rintro w ⟨-, h1⟩ ⟨-, h2⟩
    rw [h2] at h1
    simp [planeTable] at h1 hk; omega
  have d2 : ∀ k, k ∉ [170, 180, 190, 200, 210] → (HasCode q2.block.words 'G' k ↔ HasCode p.block.words 'G' k) := by
    intro k hk
    refine (k2.hasCode ?_).trans (d1 k (by simp at hk ⊢; omega))
    rintro w ⟨-, h1⟩ ⟨-, h2⟩
    rw [h2] at h1
    simp [unitTable] at h1 hk; omega
  have d3 : ∀ k, 900 ≤ k → (HasCode q3.block.words 'G' k ↔ HasCode p.block.words 'G' k) := by
    intro k hk
    refine (k3.hasCode ?_).trans (d2 k (by simp; omega))
    rintro w ⟨-, h1⟩ ⟨-, h2⟩
    rw [h2] at h1
    simp [wcsTable] at h1; omega
  refine ⟨(((k1.trans k2).trans k3).trans k4).mono ?_, ?_⟩
  · rintro w (((⟨h1, h2⟩ | ⟨h1, h2⟩) | ⟨h1, h2⟩) | ⟨h1, h2⟩) <;> refine ⟨h1, ?_⟩ <;>
      simp [planeTable, unitTable, wcsTable, distanceTable] at h2 ⊢ <;> omega
  · rw [s4, s3, s2, s1]
    simp only
    rw [pick_congr (ws := q1.block.words) (ws' := p.block.words) (t := unitModes)
        fun k v h => d1 k (by simp [unitModes] at h ⊢; omega),
      pick_congr (ws := q2.block.words) (ws' := p.block.words) (t := coordModes)
        fun k v h => d2 k (by simp [coordModes] at h ⊢; omega),
      pick_congr (ws := q3.block.words) (ws' := p.block.words) (t := distanceModes)
        fun k v h => d3 k (by simp [distanceModes] at h; omega)]

end Moovr.GCode
