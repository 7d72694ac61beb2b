import Verif.Lemmas.Request
/-!
# A concrete motion, used in examples and counterexamples

One axis with maximum speed 10, acceleration 1 and deceleration 1; a straight motion of length 1 with feed rate 2.
It accelerates for one second to speed 1 and decelerates for one second.
-/
namespace Moovr.Example
open Num AccDec

noncomputable def machine : Machine :=
  ⟨1, fun _ => 200, 1 / 20, fun _ => 10, fun _ => 1, fun _ => -1, 1, 0, fun _ => 0⟩

theorem machine_ok : machine.Ok := by constructor <;> intros <;> norm_num [machine]

noncomputable def request : SimplifiedMotion :=
  { SimplifiedMotion.fresh 1 with
    type := .feedLinear
    vFeed := fin 2
    trajectory := { (SimplifiedMotion.fresh 1).trajectory with length := fin 1, delta := fun _ => fin 1 } }

theorem request_moves : Moves 1 request 1 where
  type := rfl
  length := rfl
  pos := one_pos
  delta _ _ := ⟨1, rfl⟩
  radius := ⟨0, rfl, fun i hi h => by simp [request, SimplifiedMotion.fresh] at h; omega⟩
  some := ⟨0, by omega, Or.inr (Or.inr ⟨1, one_ne_zero, rfl⟩)⟩

/-- Acceleration and deceleration phase. -/
noncomputable def up : AccDec ℝ := ⟨0, 1, 1, -1, 1, 0, 0, 1 / 2, 0, 1 / 2, 0, 1, 1⟩
noncomputable def down : AccDec ℝ := ⟨1, 0, 1, -1, 1, 0, 0, 1 / 2, 0, 1 / 2, 0, 1, 1⟩

/-- The plan. -/
noncomputable def plan : Profile :=
  ⟨fin 0, fin 0, up.toNum, ⟨fin 1, fin 0, fin 0⟩, down.toNum, fin 2, fin 10, fin 1, fin (-1), fin 1, fin 2, posInf⟩

theorem reqProfile_eq : reqProfile machine .zero request =
    ⟨fin 0, fin 0, ⟨fin 0, fin 0, fin 1, fin (-1), fin 1, fin 0, fin 0, fin 0, fin 0, fin 0, fin 0, fin 0, fin 0⟩, .zero,
      ⟨fin 0, fin 0, fin 1, fin (-1), fin 1, fin 0, fin 0, fin 0, fin 0, fin 0, fin 0, fin 0, fin 0⟩,
      fin 2, fin 10, fin 1, fin (-1), fin 1, fin 0, fin 0⟩ := by
  have e : ∀ x : ℝ, fin x / fin 1 = fin x := fun x => by rw [fin_div one_ne_zero, div_one]
  simp [reqProfile, Profile.limit, machine, List.range_succ, Profile.limitAxis, Trajectory.ofReq, request,
    SimplifiedMotion.fresh, Profile.setSpeed, Profile.zero, e, abs_fin, Num.lt, Num.abs, fin_neg, AccDec.setMax,
    AccDec.setvStart, AccDec.setvEnd, AccDec.zero, arith_lit]

theorem setProfile_eq (x : Path) :
    MotionItem.setProfile machine x .zero request ⟨fin 1, fin 1⟩ .maximizeSpeed = plan := by
  rw [Moovr.setProfile_eq rfl, reqProfile_eq]
  have e1 : (request.trajectory.length : Num) = fin 1 := rfl
  have e2 : machine.minLengthSProfile = 0 := rfl
  rw [e1, e2]
  have hmax : Profile.vTri (fin 0) (fin 0) (fin 1) (fin (-1)) (fin 1 - fin 0) .maximizeSpeed = fin 1 := by
    simp only [Profile.vTri, fin_mul, fin_sub]
    rw [fin_div (by norm_num), sqrt_fin (by norm_num)]
    norm_num
  have hmin : Profile.vTri (fin 0) (fin 0) (fin 1) (fin (-1)) (fin 1 - fin 0) .minimizeSpeed = fin 0 := by
    simp only [Profile.vTri, fin_mul, fin_sub, fin_add, le_fin]
    norm_num
  have hc : ∀ (l r : AccDec Num) (m : Cruise Num), l.vStart = fin 0 → r.vEnd = fin 0 →
      Profile.chooseSpeed ⟨fin 0, fin 0, l, m, r, fin 2, fin 10, fin 1, fin (-1), fin 1, fin 0, fin 0⟩ (fin 1) (fin 1) 0
        .maximizeSpeed = (fin 1, .firstOrder) := by
    intro l r m hl hr
    unfold Profile.chooseSpeed
    simp only [hl, hr, hmax, hmin, fin_mul, lt_fin]
    norm_num
  unfold Profile.plan
  rw [hc _ _ _ rfl rfl]
  simp only [Profile.setPhases, Profile.finish, AccDec.calculate, AccDec.calculateFirst, AccDec.setMax, AccDec.setvStart,
    AccDec.setvEnd, Cruise.set, Cruise.zero, arith_lt_fin, lt_real, lit_real, arith_lit, lt_fin, fin_sub, fin_add, fin_mul, plan, up, down, toNum,
    eq_fin]
  norm_num [fin_div, fin_sub, fin_add, fin_mul, eq_fin, lt_fin, lt_real, lit_real]

end Moovr.Example
