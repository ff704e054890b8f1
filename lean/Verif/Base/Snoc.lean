/-! Induction on lists from the right. -/
namespace Verif
theorem snocInduction {α : Type _} {P : List α → Prop} (nil : P []) (snoc : ∀ l a, P l → P (l ++ [a])) (l : List α) : P l := by
  have : ∀ m : List α, P m.reverse := by
    intro m
    induction m with
    | nil => exact nil
    | cons a m ih => rw [List.reverse_cons]; exact snoc _ a ih
  simpa using this l.reverse
end Verif
