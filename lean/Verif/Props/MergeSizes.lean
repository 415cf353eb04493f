import Verif.Lemmas.MergeSizes
import Mathlib.Data.List.Perm.Basic

/-! Property theorem C28: merging the sizes of zipped ranges. -/

namespace Makeshift.Props

open Spec

/-- Merging succeeds iff no two known lengths differ, whatever the argument order and the mix of static, dynamic and
unknown sizes. -/
theorem C28_merge_iff (l : List Size) (hl : ∀ s ∈ l, IsSize s) : (∃ z, mergeSizes l = .ok z) ↔ Consistent l := by
  rcases mergeSizes_spec l hl with ⟨z, hz, hs⟩ | ⟨hno, hinc⟩
  · exact ⟨fun _ => hs.consistent, fun _ => ⟨z, hz⟩⟩
  · exact ⟨fun ⟨z, hz⟩ => absurd hz (hno z), fun h => absurd h hinc⟩

/-- The merged size is the common length, if some length is known, and unknown otherwise. -/
theorem C28_merge_value (l : List Size) (hl : ∀ s ∈ l, IsSize s) (z : Size) (hz : mergeSizes l = .ok z) (n : Int) :
    known z = some n ↔ ∃ s ∈ l, known s = some n := by
  rcases mergeSizes_spec l hl with ⟨w, hw, hs⟩ | ⟨hno, -⟩
  · rw [hz, MergeResult.ok.injEq] at hw
    subst hw
    exact ⟨hs.some n, fun ⟨s, h1, h2⟩ => hs.all s h1 n h2⟩
  · exact absurd hz (hno z)

/-- The merged size is known at compile time iff some argument's is. -/
theorem C28_merge_kind (l : List Size) (hl : ∀ s ∈ l, IsSize s) (z : Size) (hz : mergeSizes l = .ok z) :
    staticKnown z ↔ ∃ s ∈ l, staticKnown s := by
  rcases mergeSizes_spec l hl with ⟨w, hw, hs⟩ | ⟨hno, -⟩
  · rw [hz, MergeResult.ok.injEq] at hw
    subst hw
    exact hs.kind
  · exact absurd hz (hno z)

/-- The result does not depend on the order of the arguments. -/
theorem C28_order_independent (l l' : List Size) (hl : ∀ s ∈ l, IsSize s) (hp : l.Perm l') (z : Size) :
    mergeSizes l = .ok z ↔ mergeSizes l' = .ok z := by
  have key : ∀ l l' : List Size, (∀ s ∈ l, IsSize s) → l.Perm l' → mergeSizes l = .ok z → mergeSizes l' = .ok z := by
    intro l l' hl hp hz
    have hl' : ∀ s ∈ l', IsSize s := fun s hs => hl s (hp.mem_iff.mpr hs)
    have hc : Consistent l := (C28_merge_iff l hl).mp ⟨z, hz⟩
    have hc' : Consistent l' := fun s hs t ht => hc s (hp.mem_iff.mpr hs) t (hp.mem_iff.mpr ht)
    rcases mergeSizes_spec l hl with ⟨w, hw, hs⟩ | ⟨hno, -⟩
    · rw [hz, MergeResult.ok.injEq] at hw
      subst hw
      rcases mergeSizes_spec l' hl' with ⟨w, hw, hs'⟩ | ⟨-, hinc⟩
      · rw [hw, MergeResult.ok.injEq]
        have hk : ∀ n, known z = some n ↔ known w = some n := by
          intro n
          rw [C28_merge_value l hl z hz n, C28_merge_value l' hl' w hw n]
          simp only [hp.mem_iff]
        have hst : staticKnown z ↔ staticKnown w := by
          rw [hs.kind, hs'.kind]; simp only [hp.mem_iff]
        cases z with
        | static a =>
          by_cases ha : a = -1
          · subst ha
            have : known w = none := by
              cases h : known w with
              | none => rfl
              | some n => have := (hk n).mpr h; simp [known] at this
            exact hs'.none this
          · have h1 := (hk a).mp (by simp [known, ha])
            cases w with
            | dyn b => simp [staticKnown, ha] at hst
            | static b => simp only [known] at h1; split at h1 <;> simp_all
        | dyn a =>
          have h1 := (hk a).mp (by simp [known])
          cases w with
          | dyn b => simpa [known] using h1
          | static b =>
            simp only [known] at h1
            split at h1
            · simp at h1
            · simp_all [staticKnown]
      · exact absurd hc' hinc
    · exact absurd hz (hno z)
  exact ⟨key l l' hl hp, key l' l (fun s hs => hl s (hp.mem_iff.mpr hs)) hp.symm⟩

/-- The program is only rejected at compile time if two lengths known at compile time differ. -/
theorem C28_static_rejection (l : List Size) (hl : ∀ s ∈ l, IsSize s) (h : mergeSizes l = .staticMismatch) :
    ∃ n m, .static n ∈ l ∧ .static m ∈ l ∧ n ≠ -1 ∧ m ≠ -1 ∧ n ≠ m := mergeSizes_static l hl h

/-- Unsized, run-time size 3, compile-time size 3, run-time size 3. -/
def exSizes : List Size := [.static (-1), .dyn 3, .static 3, .dyn 3]

example : (∀ s ∈ exSizes, IsSize s) ∧ Consistent exSizes ∧ exSizes.Perm exSizes.reverse := by
  refine ⟨by simp [exSizes, IsSize], ?_, exSizes.reverse_perm.symm⟩
  have : ∀ s ∈ exSizes, ∀ n, known s = some n → n = 3 := by
    intro s hs n hn
    simp only [exSizes, List.mem_cons, List.not_mem_nil, or_false] at hs
    rcases hs with rfl | rfl | rfl | rfl <;> simp [known] at hn <;> omega
  intro s hs t ht n m hn hm
  rw [this s hs n hn, this t ht m hm]

example : mergeSizes exSizes = .ok (.static 3) := by decide +kernel
example : mergeSizes [.static 3, .dyn 2, .static 4] = .failFast ∨ mergeSizes [.static 3, .static 4] = .staticMismatch := by
  decide +kernel

end Makeshift.Props
