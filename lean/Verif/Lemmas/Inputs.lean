import Verif.Model.Inputs
/-! Helper lemma for the inputs. -/
namespace Moovr.Inputs

theorem testBit (x : BitVec 32) (i : Nat) (hi : i < 32) : (x &&& (1#32 <<< i) != 0) = x.getLsbD i := by
  have h : (x &&& (1#32 <<< i)) = (if x.getLsbD i then 1#32 <<< i else 0) := by
    apply BitVec.eq_of_getLsbD_eq
    intro j hj
    by_cases hij : j = i
    · subst hij
      cases hx : x.getLsbD j <;> simp [BitVec.getLsbD_and, hx]
    · have : (1#32 <<< i).getLsbD j = false := by
        rw [BitVec.getLsbD_shiftLeft]
        simp only [hj, decide_true, Bool.true_and, BitVec.getLsbD_one]
        by_cases hl : j < i
        · simp [hl]
        · have : ¬ (j - i = 0) := by omega
          simp [this]
      rw [BitVec.getLsbD_and, this]
      cases x.getLsbD i <;> simp [this]
  rw [h]
  have h1 : (1#32 <<< i) ≠ 0 := by
    intro hc
    have := congrArg (fun y => BitVec.getLsbD y i) hc
    simp [hi] at this
  cases x.getLsbD i
  · simp
  · simpa using h1

end Moovr.Inputs
