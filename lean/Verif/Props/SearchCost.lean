import Verif.Lemmas.SearchCost
import Verif.Lemmas.Expand
import Verif.Props.Expand

/-! Property theorems C101: the comparisons made when a runtime value is looked up. -/

namespace Makeshift.Props

open Spec

/-- The functions that record the comparisons return what the functions of C14 - C16 return. -/
theorem C101_result {α : Type} (lt : Option (α → α → Bool)) (eq : α → α → Bool) (value : α) (values : List α)
    (t : IntTy) (v : Int) (vs : List Int) :
    (searchGeneralC lt eq value values).result = searchGeneral lt eq value values ∧
    (searchIntegralC t v vs).result = searchIntegral t v vs := by
  have general : ∀ {α : Type} (lt : Option (α → α → Bool)) (eq : α → α → Bool) (value : α) (values : List α),
      (searchGeneralC lt eq value values).result = searchGeneral lt eq value values := by
    intro α lt eq value values
    cases lt with
    | none => exact linearSearchFromC_result eq value 0 values
    | some lt =>
      simp only [searchGeneralC, searchGeneral]
      by_cases h : areValuesSorted lt values = true
      · simp only [if_pos h]
        exact binarySearchLoopC_result lt eq value values _ 0 _ (Nat.le_refl _)
      · simp only [if_neg h]
        exact linearSearchFromC_result eq value 0 values
  refine ⟨general lt eq value values, ?_⟩
  simp only [searchIntegralC, searchIntegral]
  cases h : areValuesContiguous t vs with
  | ok b =>
    cases b with
    | false => exact general _ _ v vs
    | true =>
      cases vs with
      | nil => simp [areValuesContiguous] at h
      | cons v0 rest => rfl
  | throw m => rfl
  | failFast => rfl
  | ub => rfl

example : (searchGeneralC (some fun a b : Nat => decide (a < b)) (fun a b => decide (a = b)) 7 [1, 4, 7, 7, 9]).result =
    .ok 2 ∧ (searchIntegralC tInt 4 [3, 4, 5]).result = .ok 1 := by decide +kernel

/-- In a list that is sorted by the order of its type, at most `2 k + 3` comparisons are made if the list has at most
`2 ^ k + 1` elements; all of them compare with an element of the list. -/
theorem C101_sorted {α : Type} {lt eq : α → α → Bool} (ho : LinearOps lt eq) (values : List α) (value : α)
    (hs : SortedBy lt values) (k : Nat) (hk : values.length ≤ 2 ^ k + 1) :
    (searchGeneralC (some lt) eq value values).made.length ≤ 2 * k + 3 ∧
    ∀ c ∈ (searchGeneralC (some lt) eq value values).made, ∃ i : Nat, i < values.length ∧
      (c = .listedLess i ∨ c = .valueLess i ∨ c = .equal i) := by
  simp only [searchGeneralC, (areValuesSorted_iff ho values).mpr hs, if_true]
  refine ⟨binarySearchLoopC_length lt eq value values k 0 _ (by simpa using by exact_mod_cast hk), ?_⟩
  intro c hc
  obtain ⟨i, h1, h2, h3⟩ := binarySearchLoopC_pos lt eq value values _ 0 _ (Nat.le_refl _) c hc
  obtain ⟨j, rfl⟩ := Int.eq_ofNat_of_zero_le h1
  exact ⟨j, by omega, h3⟩

example : LinearOps (fun a b : Int => decide (a < b)) (fun a b => decide (a = b)) ∧
    SortedBy (fun a b : Int => decide (a < b)) [-7, 2, 2, 2, 5, 9] ∧
    ([-7, 2, 2, 2, 5, 9] : List Int).length ≤ 2 ^ 3 + 1 := ⟨intOps, by unfold SortedBy; decide, by decide⟩

/-- The bound in terms of the logarithm. -/
theorem C101_logarithmic {α : Type} {lt eq : α → α → Bool} (ho : LinearOps lt eq) (values : List α) (value : α)
    (hs : SortedBy lt values) :
    (searchGeneralC (some lt) eq value values).made.length ≤ 2 * Nat.log2 values.length + 5 := by
  refine Nat.le_trans (C101_sorted ho values value hs (Nat.log2 values.length + 1) ?_).1 (by omega)
  have := Nat.lt_log2_self (n := values.length)
  omega

/-- The bound is nearly attained: a list of 18 equal values, for which the bound is 13, needs 12 comparisons. -/
theorem C101_bound_nearly_attained : ([0, 0, 0, 0, 0, 0, 0, 0, 0, 0, 0, 0, 0, 0, 0, 0, 0, 0] : List Int).length ≤ 2 ^ 5 + 1 ∧
    (searchGeneralC (some fun a b : Int => decide (a < b)) (fun a b => decide (a = b)) 0
      [0, 0, 0, 0, 0, 0, 0, 0, 0, 0, 0, 0, 0, 0, 0, 0, 0, 0]).made.length = 12 := by decide +kernel

/-- In a list that is not sorted, or of a type without an order, the listed values are compared one after another up to
and including the first that is equal; no comparison follows. -/
theorem C101_unsorted {α : Type} (lt : Option (α → α → Bool)) (eq : α → α → Bool) (value : α) (values : List α)
    (hu : ∀ f, lt = some f → LinearOps f eq ∧ ¬ SortedBy f values) :
    (∀ pre x post, values = pre ++ x :: post → (∀ y ∈ pre, eq y value = false) → eq x value = true →
      (searchGeneralC lt eq value values).made = (List.range (pre.length + 1)).map fun k : Nat => .equal k) ∧
    ((∀ y ∈ values, eq y value = false) →
      (searchGeneralC lt eq value values).made = (List.range values.length).map fun k : Nat => .equal k) := by
  have hl : searchGeneralC lt eq value values = linearSearchFromC eq value 0 values := by
    cases lt with
    | none => rfl
    | some f =>
      obtain ⟨h1, h2⟩ := hu f rfl
      simp only [searchGeneralC, if_neg (fun h => h2 ((areValuesSorted_iff h1 values).mp h))]
  rw [hl, linearSearchFromC_made]
  simp only [Int.zero_add]
  constructor
  · rintro pre x post rfl h1 h2
    have h3 : pre.findIdx (fun y => eq y value) = pre.length := List.findIdx_eq_length.mpr (by simpa using h1)
    rw [List.findIdx_append, h3]
    simp [List.findIdx_cons, h2]
  · intro h
    have h3 : values.findIdx (fun y => eq y value) = values.length := List.findIdx_eq_length.mpr (by simpa using h)
    rw [h3, Nat.min_eq_left (by omega)]

example : (∀ f, (some fun a b : Int => decide (a < b)) = some f →
      LinearOps f (fun a b => decide (a = b)) ∧ ¬ SortedBy f [5, -3, 8, 5]) ∧
    ([5, -3, 8, 5] : List Int) = [5, -3] ++ 8 :: [5] ∧ (∀ y ∈ ([5, -3] : List Int), decide (y = 8) = false) ∧
    decide ((8 : Int) = 8) = true := by
  refine ⟨?_, by decide⟩
  rintro f h
  cases h
  exact ⟨intOps, by unfold SortedBy; decide⟩

/-- If the listed values are consecutive integers, no listed value is compared with at runtime, however long the list. -/
theorem C101_contiguous {t : IntTy} (ht : StdWidth t) (v0 : Int) (n : Nat) (value : Int)
    (hx : ∀ x ∈ run v0 (n + 1), t.InRange x) : (searchIntegralC t value (run v0 (n + 1))).made = [] := by
  rw [run_succ]
  rw [run_succ] at hx
  have hc := C16_contiguity_test_partial ht v0 (run (v0 + 1) n) hx ?_
  · simp only [searchIntegralC, hc]
    rw [decide_eq_true (by rw [← run_succ]; simp [run])]
  · intro _ x hxm
    have hlast := hx (v0 + n) (by rw [← run_succ]; exact List.mem_map.mpr ⟨n, by simp⟩)
    rw [← run_succ] at hxm
    have : x < v0 + n := by
      simp only [run, List.range_succ, List.map_append, List.map_cons, List.map_nil, List.dropLast_concat,
        List.mem_map, List.mem_range] at hxm
      omega
    have := hlast.2
    omega

example : StdWidth tInt ∧ ∀ x ∈ run (-2) (3 + 1), tInt.InRange x := by
  constructor
  · simp [StdWidth, tInt]
  · decide

/-- Sorted lists of integers, enumerators or Boolean values that are accepted by the compiler: the logarithmic bound
holds whether or not the values are consecutive. -/
theorem C101_integral {t : IntTy} (values : List Int) (value : Int) (hs : values.Pairwise (· ≤ ·))
    (k : Nat) (hk : values.length ≤ 2 ^ k + 1) : (searchIntegralC t value values).made.length ≤ 2 * k + 3 := by
  have hg := (C101_sorted intOps values value (hs.imp (by intro a b h; simpa using h)) k hk).1
  simp only [searchIntegralC]
  cases h : areValuesContiguous t values with
  | ok b =>
    cases b with
    | false => exact hg
    | true =>
      cases values with
      | nil => simp [areValuesContiguous] at h
      | cons v0 rest => simp
  | throw m => simp
  | failFast => simp
  | ub => simp

example : ([-4, 0, 0, 17, 90] : List Int).Pairwise (· ≤ ·) ∧ ([-4, 0, 0, 17, 90] : List Int).length ≤ 2 ^ 2 + 1 := by
  decide

end Makeshift.Props
