import Mathlib.Data.List.Basic

/-! What the standard sorting algorithms guarantee. -/

namespace Makeshift.Spec

/-- A strict weak ordering of the elements of a list ([alg.sorting]). -/
structure StrictWeakOn {α : Type} (lt : α → α → Bool) (l : List α) : Prop where
  irrefl : ∀ a ∈ l, lt a a = false
  trans : ∀ a ∈ l, ∀ b ∈ l, ∀ c ∈ l, lt a b = true → lt b c = true → lt a c = true
  incomp : ∀ a ∈ l, ∀ b ∈ l, ∀ c ∈ l, lt a b = false → lt b c = false → lt a c = false

/-- `std::sort` ([sort]): the elements are rearranged so that none is less than an earlier one. -/
def IsSort {α : Type} (sort : (α → α → Bool) → List α → List α) : Prop :=
  ∀ lt l, StrictWeakOn lt l → (sort lt l).Perm l ∧ (sort lt l).Pairwise fun a b => lt b a = false

/-- `std::stable_sort` ([stable.sort]): moreover, what need not change its order does not. -/
def IsStableSort {α : Type} (sort : (α → α → Bool) → List α → List α) : Prop :=
  IsSort sort ∧ ∀ lt l, StrictWeakOn lt l → ∀ a b, [a, b].Sublist l → lt b a = false → [a, b].Sublist (sort lt l)

end Makeshift.Spec
