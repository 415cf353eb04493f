import Verif.Model.SortByIndex
import Verif.Spec.SortByIndex
import Mathlib.Data.List.Perm.Basic

/-! Helper lemmas for sorting by indices. -/

namespace Makeshift

open Spec

/-! ## a sorting algorithm -/

/-- Insertion in front of the first element which is not less. -/
def insertBy {α : Type} (lt : α → α → Bool) (x : α) : List α → List α
  | [] => [x]
  | y :: l => if lt y x then y :: insertBy lt x l else x :: y :: l

/-- Insertion sort, an example of an algorithm which meets the specifications. -/
def insertionSort {α : Type} (lt : α → α → Bool) : List α → List α
  | [] => []
  | x :: l => insertBy lt x (insertionSort lt l)

theorem insertBy_perm {α : Type} (lt : α → α → Bool) (x : α) (l : List α) : (insertBy lt x l).Perm (x :: l) := by
  induction l with
  | nil => exact .refl _
  | cons y l ih =>
    unfold insertBy
    split
    · exact (ih.cons y).trans (.swap _ _ _)
    · exact .refl _

theorem insertionSort_perm {α : Type} (lt : α → α → Bool) (l : List α) : (insertionSort lt l).Perm l := by
  induction l with
  | nil => exact .refl _
  | cons x l ih => exact (insertBy_perm lt x _).trans (ih.cons x)

theorem Spec.StrictWeakOn.mono {α : Type} {lt : α → α → Bool} {l l' : List α} (h : StrictWeakOn lt l) (hs : ∀ x ∈ l', x ∈ l) : StrictWeakOn lt l' :=
  ⟨fun a ha => h.irrefl a (hs a ha), fun a ha b hb c hc => h.trans a (hs a ha) b (hs b hb) c (hs c hc),
    fun a ha b hb c hc => h.incomp a (hs a ha) b (hs b hb) c (hs c hc)⟩

theorem Spec.StrictWeakOn.asymm {α : Type} {lt : α → α → Bool} {l : List α} (h : StrictWeakOn lt l) {a b : α} (ha : a ∈ l) (hb : b ∈ l) (hab : lt a b = true) :
    lt b a = false := by
  cases hba : lt b a with
  | false => rfl
  | true => exact absurd (h.irrefl a ha) (by simp [h.trans a ha b hb a ha hab hba])

theorem insertBy_sorted {α : Type} {lt : α → α → Bool} {x : α} {l : List α} (h : StrictWeakOn lt (x :: l)) (hl : l.Pairwise fun a b => lt b a = false) :
    (insertBy lt x l).Pairwise fun a b => lt b a = false := by
  induction l with
  | nil => simp [insertBy]
  | cons y l ih =>
    rw [List.pairwise_cons] at hl
    unfold insertBy
    split
    · next hyx =>
      rw [List.pairwise_cons]
      refine ⟨fun z hz => ?_, ih (h.mono (by simp; tauto)) hl.2⟩
      rcases List.mem_cons.mp ((insertBy_perm lt x l).mem_iff.mp hz) with rfl | hz
      · exact h.asymm (by simp) (by simp) hyx
      · exact hl.1 z hz
    · next hyx =>
      have hyx : lt y x = false := by simpa using hyx
      rw [List.pairwise_cons, List.pairwise_cons]
      refine ⟨fun z hz => ?_, hl⟩
      rcases List.mem_cons.mp hz with rfl | hz
      · exact hyx
      · exact h.incomp z (by simp [hz]) y (by simp) x (by simp) (hl.1 z hz) hyx

theorem insertBy_before {α : Type} {lt : α → α → Bool} {x y : α} {l : List α} (hy : y ∈ l) (hyx : lt y x = false) (hl : l.Pairwise fun a b => lt b a = false)
    (h : StrictWeakOn lt (x :: l)) : [x, y].Sublist (insertBy lt x l) := by
  induction l with
  | nil => simp at hy
  | cons z l ih =>
    rw [List.pairwise_cons] at hl
    unfold insertBy
    split
    · next hzx =>
      rcases List.mem_cons.mp hy with rfl | hy
      · rw [hyx] at hzx; exact absurd hzx (by simp)
      · exact (ih hy hl.2 (h.mono (by simp; tauto))).cons _
    · exact List.Sublist.cons_cons x (List.singleton_sublist.mpr hy)

theorem insertBy_keeps {α : Type} {lt : α → α → Bool} {x : α} {l l' : List α} (h : l'.Sublist l) : l'.Sublist (insertBy lt x l) := by
  induction l generalizing l' with
  | nil => cases h; exact List.nil_sublist _
  | cons z l ih =>
    unfold insertBy
    split
    · cases h with
      | cons _ h => exact (ih h).cons _
      | cons_cons _ h => exact (ih h).cons_cons _
    · exact h.cons _

theorem insertionSort_stable {α : Type} : IsStableSort (insertionSort (α := α)) := by
  have hs : ∀ (lt : α → α → Bool) l, StrictWeakOn lt l → (insertionSort lt l).Pairwise fun a b => lt b a = false := by
    intro lt l h
    induction l with
    | nil => exact .nil
    | cons x l ih =>
      exact insertBy_sorted (h.mono (fun y hy => by simpa [(insertionSort_perm lt l).mem_iff] using hy)) (ih (h.mono (by simp; tauto)))
  refine ⟨fun lt l h => ⟨insertionSort_perm lt l, hs lt l h⟩, fun lt l h a b hab hba => ?_⟩
  induction l with
  | nil => simp at hab
  | cons x l ih =>
    have hl := h.mono (l' := l) (by simp; tauto)
    cases hab with
    | cons _ hab => exact insertBy_keeps (ih hl hab)
    | cons_cons _ hab =>
      exact insertBy_before ((insertionSort_perm lt l).mem_iff.mpr (List.singleton_sublist.mp hab)) hba (hs lt l hl)
        (h.mono (fun y hy => by simpa [(insertionSort_perm lt l).mem_iff] using hy))

end Makeshift
