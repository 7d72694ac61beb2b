/-! Induction over lists from the end. -/
theorem List.reverseRecOn' {α : Type _} {P : List α → Prop} (l : List α) (nil : P [])
    (snoc : ∀ l a, P l → P (l ++ [a])) : P l := by
  rw [← List.reverse_reverse l]
  induction l.reverse with
  | nil => exact nil
  | cons c cs ih => rw [List.reverse_cons]; exact snoc _ _ ih
