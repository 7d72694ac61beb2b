import Verif.Lemmas.HomingOwn
/-! Helper lemmas: a controller that makes one motion, whose plan does not end before it is told to stop. For any motion arithmetic. -/
namespace Moovr

namespace MotionCtrl
open MotionSpec
variable {K : MotionKit}

/-- The controller stands still; or makes one motion, without a planned stop; or brakes during one motion, that does not end otherwise. -/
def Smooth (c : MotionCtrl K) : Prop :=
  c.state = .stopped ∨ (c.buffer.level = 1 ∧
    ((c.state = .running ∧ ∀ x, K.later x (K.tStop c.buffer.getHead.prof) = false) ∨
     (c.state = .stopping ∧ ∀ x, K.later x (K.duration c.buffer.getHead.prof) = false)))

/-- What a calculation does to it. -/
structure SmoothTo (c c' : MotionCtrl K) : Prop where
  smooth : Smooth c'
  events : ∃ es, c'.events = c.events ++ es ∧ es.count .motionStopped ≤ 1 ∧ (c'.state ≠ .stopped → es.count .motionStopped = 0)
  ends : c.state = .running → c'.state = .stopped → c'.buffer.level = 0
  keeps : c'.state ≠ .stopped → c'.state = c.state

theorem smooth_tick {c c' : MotionCtrl K} {t} (hc : Smooth c) (hs : c.state ≠ .stopped) (h : c.tick = some (c', t)) : SmoothTo c c' := by
  rcases hc with hc | ⟨hl, hc⟩
  · exact absurd hc hs
  unfold tick at h
  simp only at h
  rw [if_pos (by simp [isRunning, hs])] at h
  simp only [Option.map_eq_some_iff, Prod.mk.injEq] at h
  obtain ⟨x, hx, rfl, -⟩ := h
  rcases hc with ⟨hst, hn⟩ | ⟨hst, hn⟩
  · have e : sampleAndCheckStop { c with signals := c.signals.next } = { c with signals := c.signals.next, time := c.time.next } := by
      unfold sampleAndCheckStop
      simp only
      rw [if_neg (by rw [SampleTime.isBeyond]; exact Bool.not_eq_true _ ▸ hn _)]
    rw [e] at hx
    unfold settle at hx
    split at hx
    · rw [if_neg (by show ¬ c.buffer.level > 1; omega)] at hx
      simp only [Option.some.injEq] at hx
      subst hx
      refine ⟨.inl rfl, ⟨[.motionStopped, .motionCompleted, .allMotionsCompleted], by simp [lastMotion, pushEvent], by decide, fun h => absurd rfl h⟩, fun _ _ => ?_, fun h => absurd rfl h⟩
      show c.buffer.pop.level = 0
      simp [MotionBuffer.pop, hl, u32sub]
    · simp only [Option.some.injEq] at hx
      subst hx
      refine ⟨.inr ⟨hl, .inl ⟨hst, hn⟩⟩, ⟨[], by simp [move], by decide, fun _ => rfl⟩, fun _ h => ?_, fun _ => rfl⟩
      exact absurd h hs
  · have key : ∀ d : MotionCtrl K, d.buffer = c.buffer → ∀ fuel y, settle (fuel + 1) d = some y → y.1 = d.move.1 := by
      intro d hd fuel y hy
      unfold settle at hy
      rw [if_neg (by rw [SampleTime.isBeyond, hd]; exact Bool.not_eq_true _ ▸ hn _)] at hy
      simp only [Option.some.injEq] at hy
      rw [← hy]
    unfold sampleAndCheckStop at hx
    simp only at hx
    split at hx
    · have := key _ (by rfl) _ _ hx
      rw [this]
      exact ⟨.inl rfl, ⟨[.motionStopped], rfl, by decide, fun h => absurd rfl h⟩, fun h => absurd (hst.symm.trans h) (by decide), fun h => absurd rfl h⟩
    · have := key _ (by rfl) _ _ hx
      rw [this]
      exact ⟨.inr ⟨hl, .inr ⟨hst, hn⟩⟩, ⟨[], by simp [move], by decide, fun _ => rfl⟩, fun h => absurd (hst.symm.trans h) (by decide), fun _ => rfl⟩

theorem smooth_loop (fuel : Nat) : ∀ {c : MotionCtrl K} {r}, Smooth c → calcLoop fuel c = some r → SmoothTo c r.1 := by
  induction fuel with
  | zero => intro c r _ h; simp [calcLoop] at h
  | succ fuel ih =>
    intro c r hc h
    by_cases hs : c.state = .stopped
    · obtain ⟨a1, a2, a3, -⟩ := calcLoop_stopped _ c hs _ h
      exact ⟨.inl a1, ⟨[], by rw [a3, List.append_nil], by decide, fun h => absurd a1 h⟩, fun h => absurd (hs.symm.trans h) (by decide),
        fun h => absurd a1 h⟩
    · unfold calcLoop at h
      split at h
      · simp at h
      · rename_i c₁ x hx
        have h1 := smooth_tick hc hs hx
        split at h
        · simp only [Option.some.injEq] at h
          subst h
          exact ⟨h1.smooth, h1.events, h1.ends, h1.keeps⟩
        · simp only [Option.map_eq_some_iff] at h
          obtain ⟨r₂, h2, rfl⟩ := h
          by_cases hs₁ : c₁.state = .stopped
          · obtain ⟨a1, a2, a3, -⟩ := calcLoop_stopped _ c₁ hs₁ _ h2
            obtain ⟨es, e1, e2, -⟩ := h1.events
            refine ⟨.inl a1, ⟨es, a3.trans e1, e2, fun h => absurd a1 h⟩, fun hr _ => ?_, fun h => absurd a1 h⟩
            show r₂.1.buffer.level = 0
            rw [a2]
            exact h1.ends hr hs₁
          · have h3 := ih h1.smooth h2
            obtain ⟨es, e1, e2, e3⟩ := h1.events
            obtain ⟨fs, f1, f2, f3⟩ := h3.events
            have e0 := e3 hs₁
            refine ⟨h3.smooth, ⟨es ++ fs, ?_, ?_, fun h => ?_⟩, fun hr => h3.ends ?_, fun h => ?_⟩
            · show r₂.1.events = _
              rw [f1, e1, List.append_assoc]
            · rw [List.count_append]; omega
            · rw [List.count_append, e0, f3 h]
            · rw [h1.keeps hs₁]; exact hr
            · exact (h3.keeps h).trans (h1.keeps hs₁)

theorem smooth_calc {c : MotionCtrl K} {r} (hc : Smooth c) (h : c.calcNext = some r) : SmoothTo c r.1 := smooth_loop _ hc h

theorem Smooth.regular {c : MotionCtrl K} (hc : Smooth c) : Regular c := by
  intro r hr
  have h := smooth_calc hc hr
  obtain ⟨es, e1, e2, -⟩ := h.events
  refine ⟨?_, h.ends⟩
  unfold stopCount
  rw [e1, List.drop_left]
  exact e2

end MotionCtrl

namespace Board
open MotionCtrl (Smooth)
variable {K : MotionKit}

theorem fill_smooth (k : Nat) : ∀ {b b' : Board K}, Smooth b.ctrl → b.fill k = some b' → Smooth b'.ctrl := by
  induction k with
  | zero =>
    intro b b' hs h
    simp only [fill, Option.some.injEq] at h
    rw [← h]; exact hs
  | succ k ih =>
    intro b b' hs h
    unfold fill at h
    split at h
    · cases h
    · rename_i r hr
      exact ih (by rw [withCtrl_ctrl]; exact (MotionCtrl.smooth_calc hs hr).smooth) h

end Board
end Moovr
