import Verif.Lemmas.IteratorTag

/-! # C35: iterator category of zipped ranges -/

namespace Makeshift.Props

open Spec

/-- The tag of a zipped iterator is (derived from) a standard category iff the tags of all zipped iterators are: it is the
weakest of them. -/
theorem C35_weakest_category (tags : List Category) (hne : tags ≠ []) :
    ∃ bases, commonIteratorTag tags = some bases ∧
      ∀ c, c ≠ .other → (TagIsA bases c ↔ ∀ t ∈ tags, IsA t c) := by
  obtain ⟨mi, hi, hilt, hik⟩ := commonBit (tags.map inputTagBit) (by simpa using hne)
    (by intro x hx; obtain ⟨t, _, rfl⟩ := List.mem_map.mp hx; exact inputTagBit_lt t)
  obtain ⟨mo, ho, holt, hok⟩ := commonBit (tags.map outputTagBit) (by simpa using hne)
    (by intro x hx; obtain ⟨t, _, rfl⟩ := List.mem_map.mp hx; exact outputTagBit_lt t)
  have hstr : ∀ t, strength t = inputTagBit t := by intro t; cases t <;> rfl
  have hic : commonInputBit tags = mi := by
    unfold commonInputBit; rw [← hi, List.map_map]; rfl
  have hoc : commonOutputBit tags = mo := by
    unfold commonOutputBit; rw [← ho, List.map_map]; rfl
  have hmo : mo ≤ 1 := by
    obtain ⟨t, ht⟩ := List.exists_mem_of_ne_nil _ hne
    have := (hok mo).mp (Nat.le_refl _) (outputTagBit t) (List.mem_map_of_mem ht)
    have h1 : outputTagBit t ≤ 1 := by cases t <;> decide
    omega
  -- input part
  have hin : ∃ bs, inputTagBase mi = some bs ∧ ∀ c, (∃ a ∈ bs, IsA a c) ↔ (1 ≤ strength c ∧ strength c ≤ mi) := by
    match mi, hilt with
    | 0, _ => exact ⟨[], rfl, fun c => by simp; omega⟩
    | 1, _ => exact ⟨_, rfl, fun c => by cases c <;> simp [IsA, strength]⟩
    | 2, _ => exact ⟨_, rfl, fun c => by cases c <;> simp [IsA, strength]⟩
    | 3, _ => exact ⟨_, rfl, fun c => by cases c <;> simp [IsA, strength]⟩
    | 4, _ => exact ⟨_, rfl, fun c => by cases c <;> simp [IsA, strength]⟩
  have hout : ∃ bs, outputTagBase mo = some bs ∧ ∀ c, (∃ a ∈ bs, IsA a c) ↔ (c = .output ∧ 1 ≤ mo) := by
    match mo, hmo with
    | 0, _ => exact ⟨[], rfl, fun c => by simp⟩
    | 1, _ => exact ⟨_, rfl, fun c => by cases c <;> simp [IsA, strength]⟩
  obtain ⟨b1, hb1, hs1⟩ := hin
  obtain ⟨b2, hb2, hs2⟩ := hout
  refine ⟨b1 ++ b2, by simp only [commonIteratorTag, hic, hoc, hb1, hb2], ?_⟩
  intro c hc
  have hsplit : TagIsA (b1 ++ b2) c ↔ (∃ a ∈ b1, IsA a c) ∨ (∃ a ∈ b2, IsA a c) := by
    unfold TagIsA
    simp only [List.mem_append]
    constructor
    · rintro ⟨a, h | h, hA⟩
      · exact Or.inl ⟨a, h, hA⟩
      · exact Or.inr ⟨a, h, hA⟩
    · rintro (⟨a, h, hA⟩ | ⟨a, h, hA⟩)
      · exact ⟨a, Or.inl h, hA⟩
      · exact ⟨a, Or.inr h, hA⟩
  rw [hsplit, hs1, hs2]
  by_cases hco : c = .output
  · subst hco
    have h0 : strength .output = 0 := rfl
    rw [h0]
    constructor
    · rintro (⟨h, _⟩ | ⟨_, h⟩)
      · omega
      · intro t ht
        have := (hok 1).mp h (outputTagBit t) (List.mem_map_of_mem ht)
        left
        cases t <;> simp_all [outputTagBit]
    · intro h
      right
      refine ⟨rfl, (hok 1).mpr ?_⟩
      intro x hx
      obtain ⟨t, ht, rfl⟩ := List.mem_map.mp hx
      rcases h t ht with rfl | ⟨h1, _⟩
      · decide
      · rw [h0] at h1; omega
  · have hpos : 1 ≤ strength c := by cases c <;> first | decide | exact absurd rfl hc | exact absurd rfl hco
    constructor
    · rintro (⟨_, h⟩ | ⟨h, _⟩)
      · intro t ht
        have := (hik (strength c)).mp h (inputTagBit t) (List.mem_map_of_mem ht)
        right
        exact ⟨hpos, by rw [hstr t]; exact this⟩
      · exact absurd h hco
    · intro h
      left
      refine ⟨hpos, (hik _).mpr ?_⟩
      intro x hx
      obtain ⟨t, ht, rfl⟩ := List.mem_map.mp hx
      rw [← hstr t]
      rcases h t ht with rfl | ⟨_, h⟩
      · exact Nat.le_refl _
      · exact h

example : commonIteratorTag [.randomAccess, .forward, .bidirectional] = some [.forward] := by decide +kernel

/-- Zipping no ranges at all is ill-formed. -/
theorem C35_no_ranges : commonIteratorTag [] = none := by decide +kernel

end Makeshift.Props
