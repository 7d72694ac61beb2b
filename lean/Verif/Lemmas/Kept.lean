import Verif.Lemmas.MotionCtrl
/-!
# What is true of all queued motions

Ticks do not change the motions in the queue, they only remove them from its front.
-/
namespace Moovr
namespace MotionCtrl
open MotionSpec
variable {K : MotionKit}

/-- All motions in the queue are such that `P`. -/
def Kept (P : Motion K → Prop) (c : MotionCtrl K) : Prop :=
  QInv c ∧ ∀ k, k < c.buffer.level → P (c.buffer.cells ((c.buffer.head + k) % 32))

private theorem kept_pop {P : Motion K → Prop} {b : MotionBuffer K} (hh : b.head < 32) (hl : b.level ≤ 32) (h1 : 1 ≤ b.level)
    (h : ∀ k, k < b.level → P (b.cells ((b.head + k) % 32))) :
    b.pop.head < 32 ∧ b.pop.level = b.level - 1 ∧ ∀ k, k < b.pop.level → P (b.pop.cells ((b.pop.head + k) % 32)) := by
  have e : b.pop.level = b.level - 1 := by show u32sub b.level 1 = _; unfold u32sub; omega
  refine ⟨Nat.mod_lt _ (by decide), e, fun k hk => ?_⟩
  rw [e] at hk
  have := h (k + 1) (by omega)
  have e' : ((b.head + 1) % 32 + k) % 32 = (b.head + (k + 1)) % 32 := by omega
  show P (b.cells (((b.head + 1) % 32 + k) % 32))
  rw [e']; exact this

private theorem kept_settle {P : Motion K → Prop} (fuel : Nat) : ∀ {c : MotionCtrl K} {r}, c.buffer.head < 32 → c.buffer.level ≤ 32 →
    1 ≤ c.buffer.level → (∀ k, k < c.buffer.level → P (c.buffer.cells ((c.buffer.head + k) % 32))) → settle fuel c = some r →
    ∀ k, k < r.1.buffer.level → P (r.1.buffer.cells ((r.1.buffer.head + k) % 32)) := by
  induction fuel with
  | zero => intro c r _ _ _ _ h; simp [settle] at h
  | succ fuel ih =>
    intro c r hh hl h1 hP h
    unfold settle at h
    obtain ⟨p1, p2, p3⟩ := kept_pop hh hl h1 hP
    split at h
    · split at h
      · rename_i h2
        exact ih (c := c.nextMotion) p1 (by show c.buffer.pop.level ≤ 32; omega) (by show 1 ≤ c.buffer.pop.level; omega) p3 h
      · simp only [Option.some.injEq] at h
        subst h
        exact p3
    · simp only [Option.some.injEq] at h
      subst h
      exact hP

theorem Kept.tick {P : Motion K → Prop} {c c' : MotionCtrl K} {x} (h : Kept P c) (ht : c.tick = some (c', x)) : Kept P c' := by
  obtain ⟨c₁, t, h1, h2, -⟩ := tick_spec c h.1
  rw [ht] at h1
  simp only [Option.some.injEq, Prod.mk.injEq] at h1
  obtain ⟨rfl, rfl⟩ := h1
  refine ⟨h2.inv, ?_⟩
  unfold MotionCtrl.tick at ht
  simp only at ht
  split at ht
  · rename_i hr
    simp only [Option.map_eq_some_iff, Prod.exists, Prod.mk.injEq] at ht
    obtain ⟨c₁, _, _, hs, rfl, -⟩ := ht
    have hst : c.state ≠ .stopped := by simpa [isRunning] using hr
    have hb : (sampleAndCheckStop { c with signals := c.signals.next }).buffer = c.buffer := by
      unfold sampleAndCheckStop
      simp only
      split <;> rfl
    refine kept_settle _ ?_ ?_ ?_ ?_ hs <;> rw [hb]
    · exact h.1.head
    · exact h.1.level
    · exact h.1.busy hst
    · exact h.2
  · simp only [Option.some.injEq, Prod.mk.injEq] at ht
    obtain ⟨rfl, -⟩ := ht
    exact h.2

theorem Kept.calcLoop {P : Motion K → Prop} (fuel : Nat) : ∀ {c c' : MotionCtrl K} {e ts}, Kept P c →
    MotionCtrl.calcLoop fuel c = some (c', e, ts) → Kept P c' := by
  induction fuel with
  | zero => intro c c' e ts _ h; simp [MotionCtrl.calcLoop] at h
  | succ fuel ih =>
    intro c c' e ts hP h
    unfold MotionCtrl.calcLoop at h
    split at h
    · simp at h
    · rename_i c₁ x hx
      have h1 := hP.tick hx
      split at h
      · simp only [Option.some.injEq, Prod.mk.injEq] at h
        obtain ⟨rfl, -, -⟩ := h
        exact ⟨⟨h1.1.head, h1.1.level, h1.1.busy⟩, h1.2⟩
      · simp only [Option.map_eq_some_iff, Prod.exists, Prod.mk.injEq] at h
        obtain ⟨c₂, e₂, ts₂, h2, rfl, rfl, rfl⟩ := h
        exact ih h1 h2

end MotionCtrl
end Moovr
