import Mathlib.Data.List.FinRange
import Mathlib.Data.List.Induction

/-! Induction principles for loops modelled as folds. -/

namespace Optima

/-- Loop invariant rule: `P processed state`. -/
theorem foldl_inv {α β : Type*} {f : β → α → β} (P : List α → β → Prop) {b : β}
    (h0 : P [] b) (hs : ∀ l b a, P l b → P (l ++ [a]) (f b a)) (l : List α) : P l (l.foldl f b) := by
  induction l using List.reverseRecOn with
  | nil => exact h0
  | append_singleton l a ih => rw [List.foldl_append]; exact hs l _ a ih

/-- Loop invariant rule for loops over all indices `0..n-1`. -/
theorem foldl_finRange_inv {n : ℕ} {β : Type*} {f : β → Fin n → β} (P : List (Fin n) → β → Prop) {b : β}
    (h0 : P [] b) (hs : ∀ l b a, P l b → P (l ++ [a]) (f b a)) :
    P (List.finRange n) ((List.finRange n).foldl f b) := foldl_inv P h0 hs _

end Optima
