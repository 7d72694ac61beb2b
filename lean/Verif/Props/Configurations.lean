import Verif.Props.StepTiming
/-!
# The shipped configurations (C74–C76)

The theorems about executing programs hold for every machine whose constants are sensible; here: the constants of the three
configurations in the repository are.
-/
namespace Moovr.Props
open Num ExecSpec MotionCtrl MotionSpec PulseSpec

/-- The constants of the plotter — lib_target/plotter2axis/general/machineproperties.h:28,38-43,64. -/
noncomputable def plotter2axis : Machine :=
  ⟨2, fun _ => 50, 1 / 20, fun _ => 200, fun _ => 200, fun _ => -200, 1000, 100, fun _ => 0⟩

/-- The constants used by the tests — lib_target/native/general/machineproperties.h:30,41-46,69. -/
noncomputable def nativeMachine : Machine :=
  ⟨3, fun _ => 50, 1 / 20, fun _ => 200, fun _ => 200, fun _ => -200, 1000, 0, fun _ => 0⟩

/-- All configurations meet the conditions of C74 and C76 with their 60000 ticks per second. -/
theorem configurations_execute : ∀ M ∈ [cnc3axis, plotter2axis, nativeMachine],
    M.Ok ∧ CanFollow M (1 / 60000) (1 / 2) ∧ Separates M (1 / 60000) := by
  intro M hM
  simp only [List.mem_cons, List.not_mem_nil, or_false] at hM
  rcases hM with rfl | rfl | rfl
  · exact ⟨by constructor <;> intros <;> norm_num [cnc3axis], by constructor <;> intros <;> norm_num [cnc3axis, travel], cnc3axis_separates⟩
  · exact ⟨by constructor <;> intros <;> norm_num [plotter2axis], by constructor <;> intros <;> norm_num [plotter2axis, travel],
      by constructor <;> intros <;> norm_num [plotter2axis, travel, Machine.accel]⟩
  · exact ⟨by constructor <;> intros <;> norm_num [nativeMachine], by constructor <;> intros <;> norm_num [nativeMachine, travel],
      by constructor <;> intros <;> norm_num [nativeMachine, travel, Machine.accel]⟩

/-- The plotter would step an axis at most every 4 ticks, and needs 133 ticks before a step in the opposite direction. -/
theorem plotter_steps_apart {d : Nat → ℝ} {c c' : MotionCtrl plotter2axis.kit} {rs ks log}
    (h : Performs plotter2axis (1 / 60000) d c rs ks c' log) {axis : Nat} (ha : axis < 2) {i j : Nat} {d₁ d₂ : Dir}
    (hs : Successive ((ticksOf log).map fun x => x.cmd axis) i j d₁ d₂) : (d₁ = d₂ → i + 4 ≤ j) ∧ (d₁ ≠ d₂ → i + 133 ≤ j) := by
  obtain ⟨a1, a2⟩ := steps_apart h ha (w := 200) ⟨by norm_num, fun _ _ => .inl le_rfl⟩ hs
  have hij := hs.lt
  obtain ⟨k, rfl⟩ := Nat.exists_eq_add_of_lt hij
  push_cast at a1 a2
  constructor
  · intro e
    have := a1 e
    norm_num [travel, plotter2axis] at this
    have h1 : (3 : ℝ) ≤ k := by linarith
    have : 3 ≤ k := by exact_mod_cast h1
    omega
  · intro e
    have := a2 e
    norm_num [Machine.accel, plotter2axis] at this
    by_contra hlt
    have hk : (k : ℝ) ≤ 131 := by exact_mod_cast (by omega : k ≤ 131)
    have hk0 : (0 : ℝ) ≤ k := Nat.cast_nonneg k
    nlinarith

end Moovr.Props
