/-!
# Ring buffers

Contents of a ring buffer as a list, and how push / pop act on it. Used by all queue models.
-/
namespace Moovr.Ring

/-- The `level` cells starting at `head`, in a ring of `n` cells, oldest first. -/
def contents {α : Type _} (n : Nat) (cells : Nat → α) (head level : Nat) : List α :=
  (List.range level).map fun i => cells ((head + i) % n)

@[simp] theorem contents_zero {α} (n : Nat) (cells : Nat → α) (head : Nat) :
    contents n cells head 0 = [] := rfl

@[simp] theorem length_contents {α} (n : Nat) (cells : Nat → α) (head level : Nat) :
    (contents n cells head level).length = level := by simp [contents]

theorem getElem_contents {α} (n : Nat) (cells : Nat → α) (head level i : Nat)
    (h : i < (contents n cells head level).length) :
    (contents n cells head level)[i] = cells ((head + i) % n) := by
  simp [contents]

theorem mod_inj {n head i j : Nat} (hi : i < n) (hj : j < n)
    (h : (head + i) % n = (head + j) % n) : i = j := by
  have h1 := Nat.div_add_mod (head + i) n
  have h2 := Nat.div_add_mod (head + j) n
  rcases Nat.lt_trichotomy ((head + i) / n) ((head + j) / n) with hlt | heq | hgt
  · obtain ⟨k, hk⟩ := Nat.exists_eq_add_of_lt hlt
    rw [hk] at h2
    have : n * ((head + i) / n + k + 1) = n * ((head + i) / n) + n * k + n := by
      rw [Nat.mul_add, Nat.mul_add]; omega
    rw [this] at h2
    have : 0 ≤ n * k := Nat.zero_le _
    omega
  · rw [heq] at h1; omega
  · obtain ⟨k, hk⟩ := Nat.exists_eq_add_of_lt hgt
    rw [hk] at h1
    have : n * ((head + j) / n + k + 1) = n * ((head + j) / n) + n * k + n := by
      rw [Nat.mul_add, Nat.mul_add]; omega
    rw [this] at h1
    have : 0 ≤ n * k := Nat.zero_le _
    omega

theorem contents_congr {α} {n : Nat} {cells cells' : Nat → α} {head level : Nat}
    (h : ∀ i, i < level → cells ((head + i) % n) = cells' ((head + i) % n)) :
    contents n cells head level = contents n cells' head level := by
  unfold contents
  apply List.map_congr_left
  intro i hi
  exact h i (List.mem_range.mp hi)

/-- Writing one cell past the end (when there is room) appends. -/
theorem contents_push {α} {n : Nat} {cells : Nat → α} {head level : Nat} {x : α} (h : level < n) :
    contents n (fun i => if i = (head + level) % n then x else cells i) head (level + 1)
      = contents n cells head level ++ [x] := by
  unfold contents
  rw [List.range_succ, List.map_append]
  congr 1
  · apply List.map_congr_left
    intro i hi
    have hi := List.mem_range.mp hi
    have : (head + i) % n ≠ (head + level) % n := fun he => by
      have := mod_inj (by omega) h he; omega
    simp [this]
  · simp

/-- The head cell is the first element. -/
theorem contents_succ {α} {n : Nat} {cells : Nat → α} {head level : Nat} (hh : head < n) :
    contents n cells head (level + 1)
      = cells head :: contents n cells ((head + 1) % n) level := by
  unfold contents
  rw [List.range_succ_eq_map, List.map_cons, List.map_map]
  congr 1
  · simp [Nat.mod_eq_of_lt hh]
  · apply List.map_congr_left
    intro i _
    simp only [Function.comp]
    congr 1
    rw [Nat.add_mod ((head + 1) % n), Nat.mod_mod, ← Nat.add_mod]
    congr 1; omega

/-- Advancing the head drops the first element. -/
theorem contents_pop {α} {n : Nat} {cells : Nat → α} {head level : Nat} (hh : head < n) (hl : 0 < level) :
    contents n cells ((head + 1) % n) (level - 1) = (contents n cells head level).tail := by
  obtain ⟨l, rfl⟩ : ∃ l, level = l + 1 := ⟨level - 1, by omega⟩
  rw [contents_succ hh]; simp

end Moovr.Ring
