/-!
# List helpers
-/

namespace Hotmeal

/-- Induction on the last element. -/
theorem List.snocInd {γ : Type} {P : List γ → Prop} (nil : P [])
    (snoc : ∀ l x, P l → P (l ++ [x])) : ∀ l, P l := by
  intro l
  have : ∀ m : List γ, P m.reverse := by
    intro m
    induction m with
    | nil => exact nil
    | cons x xs ih => rw [List.reverse_cons]; exact snoc _ _ ih
  have h := this l.reverse
  rwa [List.reverse_reverse] at h

end Hotmeal
