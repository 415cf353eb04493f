import Verif.Spec.IteratorTag
import Mathlib.Data.List.Basic

/-! Helper lemmas for iterator categories. -/

namespace Makeshift

theorem fillMask_and : ∀ a b : Fin 5, fillMask a.val &&& fillMask b.val = fillMask (min a.val b.val) := by decide

theorem bitWidth_fillMask : ∀ a : Fin 5, bitWidth (fillMask a.val) = a.val := by decide +kernel

theorem allOnes_and (x : BitVec 32) : ~~~ 0#32 &&& x = x := by
  rw [show ~~~ 0#32 = BitVec.allOnes 32 by decide]; exact BitVec.allOnes_and

/-- The minimum of a non-empty list is the bit width of the conjunction of the masks. -/
theorem foldl_masks (l : List Nat) (hl : ∀ x ∈ l, x < 5) (m : Nat) (hm : m < 5) :
    (l.map fillMask).foldl (fun result value => result &&& value) (fillMask m) = fillMask (l.foldl min m) := by
  induction l generalizing m with
  | nil => rfl
  | cons a l ih =>
    simp only [List.map_cons, List.foldl_cons]
    have := fillMask_and ⟨m, hm⟩ ⟨a, hl a (by simp)⟩
    simp only at this
    rw [this]
    exact ih (fun x hx => hl x (by simp [hx])) _ (by omega)

theorem foldl_min_le (l : List Nat) (m k : Nat) : k ≤ l.foldl min m ↔ k ≤ m ∧ ∀ x ∈ l, k ≤ x := by
  induction l generalizing m with
  | nil => simp
  | cons a l ih =>
    simp only [List.foldl_cons, ih, List.mem_cons, forall_eq_or_imp]
    constructor
    · rintro ⟨h1, h2⟩; exact ⟨by omega, by omega, h2⟩
    · rintro ⟨h1, h2, h3⟩; exact ⟨by omega, h3⟩

theorem commonBit (l : List Nat) (hne : l ≠ []) (hl : ∀ x ∈ l, x < 5) :
    ∃ m, bitWidth (cbitand (l.map fillMask)) = m ∧ m < 5 ∧ ∀ k, k ≤ m ↔ ∀ x ∈ l, k ≤ x := by
  cases l with
  | nil => exact absurd rfl hne
  | cons a l =>
    have ha := hl a (by simp)
    have hl' : ∀ x ∈ l, x < 5 := fun x hx => hl x (by simp [hx])
    have hlt : l.foldl min a < 5 := by
      have := (foldl_min_le l a (l.foldl min a)).mp (Nat.le_refl _)
      omega
    refine ⟨l.foldl min a, ?_, hlt, ?_⟩
    · unfold cbitand
      simp only [List.map_cons, List.foldl_cons]
      rw [allOnes_and, foldl_masks l hl' a ha]
      exact bitWidth_fillMask ⟨_, hlt⟩
    · intro k
      rw [foldl_min_le]
      simp

theorem inputTagBit_lt (c : Category) : inputTagBit c < 5 := by cases c <;> decide

theorem outputTagBit_lt (c : Category) : outputTagBit c < 5 := by cases c <;> decide

end Makeshift
