import Verif.Lemmas.ExecuteRun
/-!
# Repeated calculation

A property that holds after each number of ticks.
-/
namespace Moovr
namespace MotionCtrl
open MotionSpec
variable {K : MotionKit}

theorem calcLoop_inv {P : Nat → MotionCtrl K → Prop} (hsig : ∀ k c s, P k c → P k { c with signals := s })
    (htick : ∀ k c c' t, P k c → c.tick = some (c', t) → P (k + 1) c') (fuel : Nat) :
    ∀ {k : Nat} {c c' : MotionCtrl K} {e ts}, P k c → calcLoop fuel c = some (c', e, ts) →
      P (k + ts.length) c' ∧ 1 ≤ ts.length := by
  induction fuel with
  | zero => intro k c c' e ts _ h; simp [calcLoop] at h
  | succ fuel ih =>
    intro k c c' e ts hP h
    unfold calcLoop at h
    split at h
    · simp at h
    · rename_i c₁ x hx
      have h1 := htick _ _ _ _ hP hx
      split at h
      · simp only [Option.some.injEq, Prod.mk.injEq] at h
        obtain ⟨rfl, -, rfl⟩ := h
        exact ⟨hsig _ _ _ h1, le_rfl⟩
      · simp only [Option.map_eq_some_iff, Prod.exists, Prod.mk.injEq] at h
        obtain ⟨c₂, e₂, ts₂, h2, rfl, rfl, rfl⟩ := h
        have := ih h1 h2
        rw [List.length_cons, Nat.add_comm ts₂.length 1, ← Nat.add_assoc]
        exact ⟨this.1, by omega⟩

/-- A property that is preserved by each tick, after `n` calculations. -/
theorem run_inv {P : Nat → MotionCtrl K → Prop} (hsig : ∀ k c s, P k c → P k { c with signals := s })
    (htick : ∀ k c c' t, P k c → c.tick = some (c', t) → P (k + 1) c') (n : Nat) :
    ∀ {k : Nat} {c c' : MotionCtrl K} {log}, P k c → c.run (List.replicate n .calculate) = some (c', log) →
      P (k + (ticksOf log).length) c' ∧ n ≤ (ticksOf log).length := by
  induction n with
  | zero =>
    intro k c c' log hP h
    rw [List.replicate_zero, run] at h
    simp only [Option.some.injEq, Prod.mk.injEq] at h
    obtain ⟨rfl, rfl⟩ := h
    exact ⟨hP, Nat.zero_le _⟩
  | succ n ih =>
    intro k c c' log hP h
    rw [List.replicate_succ, run] at h
    split at h
    · simp at h
    · rename_i c₁ x hx
      simp only [Option.map_eq_some_iff, Prod.exists, Prod.mk.injEq] at h
      obtain ⟨c₂, l, h1, rfl, rfl⟩ := h
      simp only [call, calcNext, Option.map_eq_some_iff, Prod.exists, Prod.mk.injEq] at hx
      obtain ⟨c₀, e, ts, h2, rfl, rfl⟩ := hx
      have a := calcLoop_inv hsig htick _ hP h2
      have b := ih a.1 h1
      have hl : (ticksOf ((Call.calculate, (⟨c₀.events.drop c.events.length, some e, ts⟩ : Ret (Option K.Req))) :: l)).length =
          ts.length + (ticksOf (Req := K.Req) (Job := Option K.Req) (Time := K.Time) (Ovr := K.Ovr) l).length := by
        simp [ticksOf]
      rw [hl, ← Nat.add_assoc]
      exact ⟨b.1, by omega⟩

end MotionCtrl
end Moovr
