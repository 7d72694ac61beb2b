/-!
# `uint32_t` arithmetic on `Nat`

Used where the code could wrap around; C++ defines unsigned arithmetic modulo 2^32.
-/
namespace Moovr

/-- `a + b` on `uint32_t`. -/
def u32add (a b : Nat) : Nat := (a + b) % 4294967296

/-- `a - b` on `uint32_t`. -/
def u32sub (a b : Nat) : Nat := (a + (4294967296 - b % 4294967296)) % 4294967296

theorem u32add_of_lt {a b : Nat} (h : a + b < 4294967296) : u32add a b = a + b := Nat.mod_eq_of_lt h

theorem u32sub_of_le {a b : Nat} (h : b ≤ a) (ha : a < 4294967296) : u32sub a b = a - b := by
  unfold u32sub; omega

end Moovr
