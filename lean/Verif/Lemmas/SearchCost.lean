import Verif.Model.SearchCost
import Mathlib.Tactic.SplitIfs

/-! Lemmas about the comparisons made by the lookup. -/

namespace Makeshift

/-- One round of the binary search: it ends, making at most two comparisons with a position of the interval, or
continues with a smaller interval after at most two comparisons. -/
theorem binarySearchLoopC_cases {α : Type} (lt eq : α → α → Bool) (value : α) (values : List α) (first last : Int) :
    let s := binarySearchLoopC lt eq value values first last
    let o := binarySearchLoop lt eq value values first last
    (s.result = o ∧ (s.made = [] ∨ last - first = 1 ∧ s.made = [.equal first] ∨
      last - first > 1 ∧ s.made = [.listedLess (first + (last - first) / 2), .valueLess (first + (last - first) / 2)])) ∨
    (last - first > 1 ∧ ∃ f l m, f ≤ l ∧ first ≤ f ∧ l ≤ last ∧ l - f < last - first ∧ l - f ≤ (last - first) / 2 + 1 ∧
      (m = [.listedLess (first + (last - first) / 2)] ∨
        m = [.listedLess (first + (last - first) / 2), .valueLess (first + (last - first) / 2)]) ∧
      s = (binarySearchLoopC lt eq value values f l).after m ∧ o = binarySearchLoop lt eq value values f l) := by
  intro s o
  have hs : s = binarySearchLoopC lt eq value values first last := rfl
  have ho : o = binarySearchLoop lt eq value values first last := rfl
  clear_value s o
  rw [binarySearchLoopC] at hs
  rw [binarySearchLoop] at ho
  by_cases h : last - first > 1
  · simp only [dif_pos h] at hs ho
    cases hx : at? values (first + (last - first) / 2) with
    | none => simp only [hx] at hs ho; subst hs ho; simp
    | some x =>
      simp only [hx] at hs ho
      by_cases h1 : lt x value = true
      · simp only [if_pos h1] at hs ho
        exact .inr ⟨h, _, _, _, by omega, by omega, by omega, by omega, by omega, .inl rfl, hs, ho⟩
      · simp only [if_neg h1] at hs ho
        by_cases h2 : lt value x = true
        · simp only [if_pos h2] at hs ho
          exact .inr ⟨h, _, _, _, by omega, by omega, by omega, by omega, by omega, .inr rfl, hs, ho⟩
        · simp only [if_neg h2] at hs ho
          by_cases h3 : first + (last - first) / 2 + 1 = last
          · simp only [dif_pos h3] at hs ho
            subst hs ho
            exact .inl ⟨rfl, .inr (.inr ⟨h, rfl⟩)⟩
          · simp only [dif_neg h3] at hs ho
            exact .inr ⟨h, _, _, _, by omega, by omega, by omega, by omega, by omega, .inr rfl, hs, ho⟩
  · simp only [dif_neg h] at hs ho
    by_cases h1 : last - first = 1
    · simp only [if_pos h1] at hs ho
      cases hx : at? values first <;> simp only [hx] at hs ho <;> subst hs ho
      · simp
      · exact .inl ⟨rfl, .inr (.inl ⟨h1, rfl⟩)⟩
    · simp only [if_neg h1] at hs ho
      subst hs ho; simp

/-- The result is that of the model without a record. -/
theorem binarySearchLoopC_result {α : Type} (lt eq : α → α → Bool) (value : α) (values : List α) (n : Nat)
    (first last : Int) (hn : (last - first).toNat ≤ n) :
    (binarySearchLoopC lt eq value values first last).result = binarySearchLoop lt eq value values first last := by
  induction n generalizing first last with
  | zero =>
    rcases binarySearchLoopC_cases lt eq value values first last with h | h
    · exact h.1
    · omega
  | succ n ih =>
    rcases binarySearchLoopC_cases lt eq value values first last with h | ⟨h, f, l, m, h1, h2, h3, h4, h5, h6, h7, h8⟩
    · exact h.1
    · rw [h7, h8, Search.after]
      exact ih f l (by omega)

/-- Every comparison is with a position in the interval. -/
theorem binarySearchLoopC_pos {α : Type} (lt eq : α → α → Bool) (value : α) (values : List α) (n : Nat)
    (first last : Int) (hn : (last - first).toNat ≤ n) :
    ∀ c ∈ (binarySearchLoopC lt eq value values first last).made, ∃ i, first ≤ i ∧ i < last ∧
      (c = .listedLess i ∨ c = .valueLess i ∨ c = .equal i) := by
  induction n generalizing first last with
  | zero =>
    rcases binarySearchLoopC_cases lt eq value values first last with ⟨-, h | h | h⟩ | h
    · simp [h]
    · omega
    · omega
    · omega
  | succ n ih =>
    rcases binarySearchLoopC_cases lt eq value values first last with
      ⟨-, h | h | h⟩ | ⟨h, f, l, m, h1, h2, h3, h4, h5, h6, h7, h8⟩
    · simp [h]
    · rw [h.2]
      intro c hc
      exact ⟨first, by omega, by omega, .inr (.inr (by simpa using hc))⟩
    · rw [h.2]
      intro c hc
      refine ⟨first + (last - first) / 2, by omega, by omega, ?_⟩
      simp only [List.mem_cons, List.not_mem_nil, or_false] at hc
      rcases hc with hc | hc
      · exact .inl hc
      · exact .inr (.inl hc)
    · rw [h7]
      intro c hc
      simp only [Search.after, List.mem_append] at hc
      rcases hc with hc | hc
      · refine ⟨first + (last - first) / 2, by omega, by omega, ?_⟩
        rcases h6 with h6 | h6 <;> subst h6 <;>
          simp only [List.mem_cons, List.not_mem_nil, or_false] at hc
        · exact .inl hc
        · rcases hc with hc | hc
          · exact .inl hc
          · exact .inr (.inl hc)
      · obtain ⟨i, hi1, hi2, hi3⟩ := ih f l (by omega) c hc
        exact ⟨i, by omega, by omega, hi3⟩

/-- The number of comparisons made for an interval of at most `2 ^ k + 1` positions. -/
theorem binarySearchLoopC_length {α : Type} (lt eq : α → α → Bool) (value : α) (values : List α) (k : Nat)
    (first last : Int) (hk : last - first ≤ 2 ^ k + 1) :
    (binarySearchLoopC lt eq value values first last).made.length ≤ 2 * k + 3 := by
  have small : ∀ first last : Int, last - first ≤ 1 →
      (binarySearchLoopC lt eq value values first last).made.length ≤ 1 := by
    intro first last h
    rcases binarySearchLoopC_cases lt eq value values first last with ⟨-, h' | h' | h'⟩ | h'
    · simp [h']
    · simp [h'.2]
    · omega
    · omega
  induction k generalizing first last with
  | zero =>
    rcases binarySearchLoopC_cases lt eq value values first last with
      ⟨-, h | h | h⟩ | ⟨h, f, l, m, h1, h2, h3, h4, h5, h6, h7, h8⟩
    · simp [h]
    · simp [h.2]
    · simp [h.2]
    · rw [h7]
      have := small f l (by omega)
      rcases h6 with h6 | h6 <;> subst h6 <;> simp [Search.after] <;> omega
  | succ k ih =>
    rcases binarySearchLoopC_cases lt eq value values first last with
      ⟨-, h | h | h⟩ | ⟨h, f, l, m, h1, h2, h3, h4, h5, h6, h7, h8⟩
    · simp [h]
    · simp [h.2]
    · simp [h.2]
    · rw [h7]
      have := ih f l (by rw [Int.pow_succ] at hk; omega)
      rcases h6 with h6 | h6 <;> subst h6 <;> simp [Search.after] <;> omega

theorem linearSearchFromC_result {α : Type} (eq : α → α → Bool) (value : α) (i : Int) (values : List α) :
    (linearSearchFromC eq value i values).result = .ok (linearSearchFrom eq value i values) := by
  induction values generalizing i with
  | nil => rfl
  | cons x r ih =>
    simp only [linearSearchFromC, linearSearchFrom]
    split_ifs <;> simp [Search.after, ih]

/-- The linear search compares with the positions up to the first equal one, in order. -/
theorem linearSearchFromC_made {α : Type} (eq : α → α → Bool) (value : α) (i : Int) (values : List α) :
    (linearSearchFromC eq value i values).made =
      (List.range (min values.length (values.findIdx (eq · value) + 1))).map fun k : Nat => .equal (i + k) := by
  induction values generalizing i with
  | nil => rfl
  | cons x r ih =>
    simp only [linearSearchFromC, List.findIdx_cons]
    by_cases h : eq x value = true
    · simp [h, List.range_succ]
    · simp only [h, Bool.false_eq_true, if_false, Search.after, ih, cond_false, List.length_cons]
      rw [Nat.add_min_add_right, List.range_succ_eq_map]
      simp only [List.map_cons, List.map_map, List.singleton_append]
      congr 1
      · simp
      apply List.map_congr_left
      intro k _
      simp only [Function.comp]
      congr 1
      omega

end Makeshift
