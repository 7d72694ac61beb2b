import Verif.Lemmas.Density
import Mathlib.Data.Finset.Card
import Mathlib.Order.Interval.Finset.Nat
/-!
# Entries of the step buffer for steps that never coincide

Steps of two axes on ticks that are never the same nor adjacent need two entries each.
-/
namespace Moovr
open PulseSpec StepQueueSpec StepSignals

/-- The expansion of entries changes only where an entry ends. -/
theorem change_ends {α : Type _} (es : List (Nat × α)) : ∀ (last : α), (∀ e ∈ es, 1 ≤ e.1) → ∀ (k : Nat) (x y : α),
    (last :: expand last es)[k]? = some x → (last :: expand last es)[k + 1]? = some y → x ≠ y →
    ∃ i, i < es.length ∧ k + 1 = ((es.take (i + 1)).map Prod.fst).sum := by
  induction es with
  | nil => intro last _ k x y _ h2 _; simp [expand] at h2
  | cons e es ih =>
    intro last hp k x y h1 h2 hne
    obtain ⟨t, z⟩ := e
    have ht : 1 ≤ t := hp (t, z) List.mem_cons_self
    have e1 : last :: expand last ((t, z) :: es) = List.replicate t last ++ (z :: expand z es) := by
      obtain ⟨m, rfl⟩ : ∃ m, t = m + 1 := ⟨t - 1, by omega⟩
      simp only [expand, Nat.add_sub_cancel, List.append_assoc, List.singleton_append]
      rw [List.replicate_succ, List.cons_append]
    rw [e1] at h1 h2
    rcases Nat.lt_trichotomy (k + 1) t with hk | hk | hk
    · exfalso
      rw [List.getElem?_append_left (by simp; omega), List.getElem?_replicate, if_pos (by omega)] at h1 h2
      exact hne (Option.some.inj (h1.symm.trans h2))
    · exact ⟨0, by simp, by simp [hk]⟩
    · rw [List.getElem?_append_right (by simp; omega), List.length_replicate] at h1 h2
      rw [show k + 1 - t = (k - t) + 1 by omega] at h2
      obtain ⟨i, hi, e⟩ := ih z (fun e he => hp e (List.mem_cons_of_mem _ he)) (k - t) x y h1 h2 hne
      refine ⟨i + 1, by simp; omega, ?_⟩
      rw [List.take_succ_cons, List.map_cons, List.sum_cons, ← e]
      simp only
      omega

theorem sum_take_mono (l : List Nat) {i j : Nat} (h : i ≤ j) : (l.take i).sum ≤ (l.take j).sum := by
  have : l.take j = l.take i ++ (l.drop i).take (j - i) := by rw [← List.take_add]; congr 1; omega
  rw [this, List.sum_append]; omega

/-- If the expansion changes on 255 ticks less than 750 ticks apart, then some 254 consecutive entries last less than 750 ticks. -/
theorem crowded {es : List Step} (hp : ∀ e ∈ es, 1 ≤ e.timeBefore) {A : Nat} {C : Finset Nat} (hC : 255 ≤ C.card)
    (hr : ∀ k ∈ C, A ≤ k ∧ k < A + 750)
    (hch : ∀ k ∈ C, ∃ x y, (expand 0 (es.map fun e => (e.timeBefore, e.signals)))[k]? = some x ∧
      (expand 0 (es.map fun e => (e.timeBefore, e.signals)))[k + 1]? = some y ∧ x ≠ y) :
    ∃ i, i + 254 ≤ es.length ∧ i ≤ A + 751 ∧ sumTime ((es.drop i).take 254) < 750 := by
  classical
  set P : Nat → Nat := fun i => sumTime (es.take i) with hP
  have hmono : ∀ {i j : Nat}, i ≤ j → P i ≤ P j := fun {i j} h => by
    simp only [hP, sumTime, List.map_take]; exact sum_take_mono _ h
  have hend : ∀ k ∈ C, ∃ i, i < es.length ∧ k + 2 = P (i + 1) := by
    intro k hk
    obtain ⟨x, y, h1, h2, hne⟩ := hch k hk
    obtain ⟨i, hi, e⟩ := change_ends (es.map fun e => (e.timeBefore, e.signals)) 0
      (by intro e he; obtain ⟨s, hs, rfl⟩ := List.mem_map.1 he; exact hp s hs) (k + 1) x y (by simpa using h1) (by simpa using h2) hne
    refine ⟨i, by simpa using hi, ?_⟩
    rw [e]
    simp only [hP, sumTime, List.map_take, List.map_map]
    rfl
  choose! f hf1 hf2 using hend
  have hinj : Set.InjOn f C := by
    intro a ha b hb e
    have h1 := hf2 a ha; have h2 := hf2 b hb
    rw [e] at h1; omega
  have hcard : (C.image f).card = C.card := Finset.card_image_of_injOn hinj
  have hne : (C.image f).Nonempty := by rw [← Finset.card_pos]; omega
  obtain ⟨a, ha, ea⟩ := Finset.mem_image.1 ((C.image f).min'_mem hne)
  obtain ⟨b, hb, eb⟩ := Finset.mem_image.1 ((C.image f).max'_mem hne)
  have hsub : C.image f ⊆ Finset.Icc (f a) (f b) := by
    intro x hx
    rw [ea, eb]
    exact Finset.mem_Icc.2 ⟨Finset.min'_le _ _ hx, Finset.le_max' _ _ hx⟩
  have hle := Finset.card_le_card hsub
  rw [hcard, Nat.card_Icc] at hle
  have ra := hr a ha; have rb := hr b hb
  have h1 := hf2 a ha; have h2 := hf2 b hb
  have h3 := hf1 b hb
  have hgrow : ∀ i, i ≤ es.length → i ≤ P i := by
    intro i hi
    have := FillLoop.le_sumTime (es.take i) 1 (fun s hs => hp s (List.mem_of_mem_take hs))
    rw [List.length_take] at this
    show i ≤ sumTime (es.take i)
    omega
  refine ⟨f a + 1, by omega, ?_, ?_⟩
  · have hab : f a ≤ f b := by omega
    have := hgrow (f a + 1) (by omega)
    omega
  · have e1 : P (f a + 1 + 254) = P (f a + 1) + sumTime ((es.drop (f a + 1)).take 254) := by
      simp only [hP]
      rw [List.take_add, StepBuffer.sumTime_append]
    have := hmono (show f a + 1 + 254 ≤ f b + 1 by omega)
    omega

theorem stepLine_get (cs : List Cmd) : ∀ (p : Bool) (k : Nat) (x y : Cmd), cs[k]? = some x → cs[k + 1]? = some y →
    (stepLine p cs)[k + 1]? = some (x.isSome && y.isNone) := by
  induction cs with
  | nil => intro p k x y h1 _; simp at h1
  | cons c cs ih =>
    intro p k x y h1 h2
    cases k with
    | zero =>
      simp only [List.getElem?_cons_zero, Option.some.injEq] at h1
      subst h1
      cases cs with
      | nil => simp at h2
      | cons d cs =>
        simp only [List.getElem?_cons_succ, List.getElem?_cons_zero, Option.some.injEq] at h2
        subst h2
        rfl
    | succ k =>
      simp only [List.getElem?_cons_succ] at h1 h2
      have := ih c.isSome k x y h1 h2
      simpa [stepLine] using this

/-- Steps of two axes, on ticks that are never the same nor adjacent, within 747 ticks: if they are at least 131 altogether, some
254 consecutive entries last less than 750 ticks. -/
theorem crowded_steps {n : Nat} (hn : n ≤ 15) (h2 : 2 ≤ n) {es : List Step} (hp : ∀ e ∈ es, 1 ≤ e.timeBefore)
    {cmds : List (Nat → Cmd)} (hw : waveform n init cmds = expand 0 (es.map fun e => (e.timeBefore, e.signals)))
    {A : Nat} (hlen : A + 748 ≤ cmds.length) {X Y : Finset Nat} (hX : ∀ k ∈ X, A ≤ k ∧ k ≤ A + 746)
    (hY : ∀ k ∈ Y, A ≤ k ∧ k ≤ A + 746)
    (hXc : ∀ (k) (h : k < cmds.length), A ≤ k → k ≤ A + 746 → (((cmds[k]'h) 0).isSome = true ↔ k ∈ X))
    (hYc : ∀ (k) (h : k < cmds.length), A ≤ k → k ≤ A + 746 → (((cmds[k]'h) 1).isSome = true ↔ k ∈ Y))
    (hXX : ∀ k ∈ X, k + 1 ∉ X) (hYY : ∀ k ∈ Y, k + 1 ∉ Y)
    (hXY : ∀ k ∈ X, k ∉ Y ∧ k + 1 ∉ Y) (hYX : ∀ k ∈ Y, k + 1 ∉ X) (hcount : 131 ≤ X.card + Y.card) :
    ∃ i, i + 254 ≤ es.length ∧ i ≤ A + 751 ∧ sumTime ((es.drop i).take 254) < 750 := by
  classical
  set Z := X ∪ Y with hZ
  have hdisj : Disjoint X Y := Finset.disjoint_left.2 fun k hk => (hXY k hk).1
  have hZc : Z.card = X.card + Y.card := Finset.card_union_of_disjoint hdisj
  have hZZ : ∀ k ∈ Z, k + 1 ∉ Z := by
    intro k hk hk'
    rcases Finset.mem_union.1 hk with h | h <;> rcases Finset.mem_union.1 hk' with h' | h'
    · exact hXX k h h'
    · exact (hXY k h).2 h'
    · exact hYX k h h'
    · exact hYY k h h'
  have hZr' : ∀ k ∈ Z, A ≤ k ∧ k ≤ A + 746 := by
    intro k hk
    rcases Finset.mem_union.1 hk with h | h
    exacts [hX k h, hY k h]
  set Q := Z.filter fun k => A < k ∧ k < A + 745 with hQ
  have hQZ : ∀ k ∈ Q, k ∈ Z := fun k hk => (Finset.mem_filter.1 hk).1
  have hZr : ∀ k ∈ Q, A < k ∧ k < A + 745 := fun k hk => (Finset.mem_filter.1 hk).2
  have hQc : 128 ≤ Q.card := by
    have hsub : Z ⊆ Q ∪ {A, A + 745, A + 746} := by
      intro k hk
      have := hZr' k hk
      rw [Finset.mem_union, hQ, Finset.mem_filter]
      by_cases h : A < k ∧ k < A + 745
      · exact .inl ⟨hk, h⟩
      · right
        simp only [Finset.mem_insert, Finset.mem_singleton]
        omega
    have h1 := Finset.card_le_card hsub
    have h2 := Finset.card_union_le Q {A, A + 745, A + 746}
    have h3 : ({A, A + 745, A + 746} : Finset Nat).card ≤ 3 := Finset.card_le_three
    omega
  -- the value of the waveform one tick later shows a step
  have hval : ∀ k, A ≤ k → k + 1 ≤ A + 746 → ∃ v, (waveform n init cmds)[k + 1]? = some v ∧
      ((v.getLsbD 0 || v.getLsbD 2) = true ↔ k ∈ Z) := by
    intro k hk hk'
    have hl : (waveform n init cmds).length = cmds.length := Props.waveform_length n init cmds
    have hkl : k + 1 < cmds.length := by omega
    refine ⟨(waveform n init cmds)[k + 1]'(by omega), List.getElem?_eq_getElem _, ?_⟩
    have key : ∀ a, a < n → ((waveform n init cmds)[k + 1]'(by omega)).getLsbD (2 * a) =
        ((cmds[k] a).isSome && (cmds[k + 1] a).isNone) := by
      intro a ha
      have e := (Props.step_signals_exact n hn a ha cmds).1
      have e1 := stepLine_get (cmds.map (· a)) false k (cmds[k] a) (cmds[k + 1] a)
        (by rw [List.getElem?_map, List.getElem?_eq_getElem (by omega)]; rfl)
        (by rw [List.getElem?_map, List.getElem?_eq_getElem hkl]; rfl)
      rw [← e, List.getElem?_map, List.getElem?_eq_getElem (by omega)] at e1
      simpa using e1
    have k0 := key 0 (by omega)
    have k1 := key 1 (by omega)
    simp only [Nat.mul_zero, Nat.mul_one] at k0 k1
    rw [k0, k1]
    have x0 := hXc k (by omega) hk (by omega)
    have x1 := hXc (k + 1) hkl (by omega) (by omega)
    have y0 := hYc k (by omega) hk (by omega)
    have y1 := hYc (k + 1) hkl (by omega) (by omega)
    have nx : k ∈ X → (cmds[k + 1] 0).isNone = true := fun h => by
      rw [← Option.not_isSome]; simpa using mt x1.1 (hXX k h)
    have ny : k ∈ Y → (cmds[k + 1] 1).isNone = true := fun h => by
      rw [← Option.not_isSome]; simpa using mt y1.1 (hYY k h)
    rw [hZ, Finset.mem_union]
    constructor
    · intro h
      rcases Bool.or_eq_true_iff.1 h with h | h
      · exact .inl (x0.1 (Bool.and_eq_true_iff.1 h).1)
      · exact .inr (y0.1 (Bool.and_eq_true_iff.1 h).1)
    · rintro (h | h)
      · rw [x0.2 h, nx h]; rfl
      · rw [y0.2 h, ny h]; simp
  have hchange : ∀ k, A ≤ k → k + 2 ≤ A + 746 → (k ∈ Z ↔ k + 1 ∉ Z) → ∃ x y, (expand 0 (es.map fun e => (e.timeBefore, e.signals)))[k + 1]? = some x ∧
      (expand 0 (es.map fun e => (e.timeBefore, e.signals)))[k + 1 + 1]? = some y ∧ x ≠ y := by
    intro k h1 h2 h3
    obtain ⟨x, ex, hx⟩ := hval k h1 (by omega)
    obtain ⟨y, ey, hy⟩ := hval (k + 1) (by omega) h2
    refine ⟨x, y, by rw [← hw]; exact ex, by rw [← hw]; exact ey, fun e => ?_⟩
    subst e
    by_cases h : k ∈ Z
    · exact (h3.1 h) (hy.1 (hx.2 h))
    · exact h (h3.2 (fun h' => h (hx.1 (hy.2 h'))))
  refine crowded hp (A := A) (C := Q ∪ Q.image (· + 1)) ?_ ?_ ?_
  · have hd : Disjoint Q (Q.image (· + 1)) := by
      rw [Finset.disjoint_left]
      intro k hk hk'
      obtain ⟨a, ha, rfl⟩ := Finset.mem_image.1 hk'
      exact hZZ a (hQZ a ha) (hQZ _ hk)
    rw [Finset.card_union_of_disjoint hd, Finset.card_image_of_injective _ (fun a b h => by simpa using h)]
    omega
  · intro k hk
    rcases Finset.mem_union.1 hk with h | h
    · have := hZr k h; omega
    · obtain ⟨a, ha, rfl⟩ := Finset.mem_image.1 h
      have := hZr a ha; omega
  · intro k hk
    rcases Finset.mem_union.1 hk with h | h
    · have r := hZr k h
      have := hchange (k - 1) (by omega) (by omega) ?_
      · rwa [show k - 1 + 1 = k by omega] at this
      · rw [show k - 1 + 1 = k by omega]
        constructor
        · intro h'; have := hZZ _ h'; rw [show k - 1 + 1 = k by omega] at this; exact this
        · intro h'; exact absurd (hQZ _ h) h'
    · obtain ⟨a, ha, rfl⟩ := Finset.mem_image.1 h
      have r := hZr a ha
      exact hchange a (by omega) (by omega) ⟨fun _ => hZZ a (hQZ a ha), fun _ => hQZ a ha⟩

end Moovr
