import Verif.Lemmas.InstantiationDepth

/-! # C165: how many types and combinations the compiler's limit on nested templates permits -/

namespace Makeshift.Props

open Makeshift.InstantiationDepth

variable {Ty : Type}

/-- Removing the duplicates of a list of types compiles just if the limit `L` allows for two levels for every type of the list, no matter how many of them are duplicates, two further ones,
and whatever the standard library needs; the result, if there is one, has every type once. -/
theorem C165_unique [DecidableEq Ty] (b : Nat → Nat) (Ts : List Ty) (L : Nat) (R : List Ty) : unique b Ts L = some R ↔
    2 * Ts.length + 2 ≤ L ∧ (∀ i < Ts.length, 2 * (i + 1) + b (Ts.length - 1 - i) ≤ L) ∧ R = Ts.dedup := unique_iff b Ts L R

example : unique (fun _ => 6) [1, 2, 1, 1] 14 = some [2, 1] ∧ unique (fun _ => 6) [1, 2, 1, 1] 13 = none := by decide

/-- Likewise for filtering a list of types, no matter how many of them are kept. -/
theorem C165_filter (p : Ty → Nat) (pred : Ty → Bool) (Ts : List Ty) (L : Nat) (R : List Ty) : InstantiationDepth.filter p pred Ts L = some R ↔
    2 * Ts.length + 2 ≤ L ∧ (∀ i T, Ts[i]? = some T → 2 * (i + 1) + p T ≤ L) ∧ R = Ts.filter pred := filter_iff p pred Ts L R

example : InstantiationDepth.filter (fun _ => 1) (· != 2) [1, 2, 3] 8 = some [1, 3] ∧ InstantiationDepth.filter (fun _ => 1) (· != 2) [1, 2, 3] 7 = none := by decide

/-- Concatenating lists of types needs one level for every list and two more, however long the lists are. -/
theorem C165_cat (Ts : List (List Ty)) (L : Nat) (R : List Ty) : cat Ts L = some R ↔ Ts.length + 2 ≤ L ∧ R = Ts.flatten := by
  simp only [cat, inst_iff, cat0_iff, List.nil_append]
  exact ⟨fun ⟨a, b, c⟩ => ⟨by omega, c⟩, fun ⟨a, b⟩ => ⟨by omega, by omega, b⟩⟩

example : cat [[1, 2, 3], [], [4]] 5 = some [1, 2, 3, 4] ∧ cat [[1, 2, 3], [], [4]] 4 = none := by decide

/-- Comparing types needs one level for every type up to the first one which differs. -/
theorem C165_equal [DecidableEq Ty] (T : Ty) (n L : Nat) (r : Option Ty) :
    (equal ([] : List Ty) L = some r ↔ 1 ≤ L ∧ r = none) ∧
    (equal (List.replicate (n + 1) T) L = some r ↔ n + 1 ≤ L ∧ r = some T) ∧
    ∀ U Ts, T ≠ U → (equal (List.replicate (n + 1) T ++ U :: Ts) L = some r ↔ n + 1 ≤ L ∧ r = none) :=
  ⟨by simp only [equal, inst_iff, Option.some.injEq]; rw [eq_comm (a := none)], by rw [List.replicate_succ]; exact equal0_same T n L r,
    fun U Ts h => by rw [List.replicate_succ]; exact equal0_other T U h Ts n L r⟩

example : equal [1, 1, 2, 1] 2 = some none ∧ equal [1, 1, 1] 2 = none ∧ equal [1, 1, 1] 3 = some (some 1) := by decide

/-- `variant_transform()` compiles just if the limit allows for two levels for every combination of alternatives, three further ones, and what the functor and the standard library
need; the result type, if there is one, has every result which is not `void` once. -/
theorem C165_transform [DecidableEq Ty] (l : Levels Ty) (isVoid : Ty → Bool) (resTy : List Ty → Ty) (args : List (List Ty)) (L : Nat) (R : List Ty) :
    let rs := (Spec.combinations args).map resTy
    let kept := rs.filter fun T => !isVoid T
    transformResult l isVoid resTy args L = some R ↔
      2 * (args.map List.length).prod + 3 ≤ L ∧ args.length + 3 ≤ L ∧ l.size + 2 ≤ L ∧ (∀ Ts ∈ Spec.combinations args, l.call Ts + 4 ≤ L) ∧
      (∀ i T, rs[i]? = some T → 2 * (i + 1) + l.isVoid T + 1 ≤ L) ∧ (∀ i < kept.length, 2 * (i + 1) + l.isIn (kept.length - 1 - i) + 1 ≤ L) ∧
      R = kept.dedup := by
  intro rs kept
  have hl : rs.length = (args.map List.length).prod := by rw [List.length_map, combinations_length]
  have hk : kept.length ≤ rs.length := List.length_filter_le _ _
  simp only [transformResult, inst_iff, Option.bind_eq_some_iff, results_iff, filter_iff, unique_iff, Option.some.injEq]
  rw [← hl]
  constructor
  · rintro ⟨h0, _, ⟨h1, h2, h3, rfl⟩, _, ⟨h4, h5, rfl⟩, _, ⟨h6, h7, rfl⟩, h8, rfl⟩
    exact ⟨by have : 2 * rs.length + 2 ≤ L - 1 := h4
              omega, by omega, by omega, fun Ts hTs => by have := h3 Ts hTs; omega, fun i T hi => by have := h5 i T hi; omega,
      fun i hi => by
        have : 2 * (i + 1) + l.isIn (kept.length - 1 - i) ≤ L - 1 := h7 i hi
        omega, rfl⟩
  · rintro ⟨h1, h2, h3, h4, h5, h6, rfl⟩
    refine ⟨by omega, rs, ⟨by omega, by omega, fun Ts hTs => by have := h4 Ts hTs; omega, rfl⟩, kept,
      ⟨by omega, fun i T hi => by have := h5 i T hi; omega, rfl⟩, _, ⟨by omega, fun i hi => by have := h6 i hi; omega, rfl⟩, by omega, rfl⟩

example : let l : Levels Nat := ⟨1, fun _ => 3, fun _ => 2, fun _ => 2⟩
    transformResult l (· == 0) (fun Ts => Ts.sum % 3) [[1, 2], [3, 4, 5]] 15 = some [2, 1] ∧
    transformResult l (· == 0) (fun Ts => Ts.sum % 3) [[1, 2], [3, 4, 5]] 14 = none := by decide

/-- `variant_transform_many()` needs one level for every combination of alternatives and two further ones, and two levels for every alternative of every result - every one of them is counted
as often as it is returned - and three further ones. -/
theorem C165_many [DecidableEq Ty] (l : Levels Ty) (resTys : List Ty → List Ty) (args : List (List Ty)) (L : Nat) (R : List Ty) :
    let flat := ((Spec.combinations args).map resTys).flatten
    manyResult l resTys args L = some R ↔
      (args.map List.length).prod + 2 ≤ L ∧ 2 * flat.length + 3 ≤ L ∧ args.length + 3 ≤ L ∧ l.size + 2 ≤ L ∧ (∀ Ts ∈ Spec.combinations args, l.call Ts + 4 ≤ L) ∧
      (∀ i < flat.length, 2 * (i + 1) + l.isIn (flat.length - 1 - i) + 1 ≤ L) ∧ R = flat.dedup := by
  intro flat
  rw [← combinations_length]
  simp only [manyResult, inst_iff, Option.bind_eq_some_iff, results_iff, flatten_iff, unique_iff, Option.some.injEq, List.nil_append]
  constructor
  · rintro ⟨h0, _, ⟨h1, h2, h3, rfl⟩, _, ⟨h4, rfl⟩, _, ⟨h6, h7, rfl⟩, h8, rfl⟩
    rw [List.length_map] at h4
    refine ⟨by omega, ?_, by omega, by omega, fun Ts hTs => by have := h3 Ts hTs; omega, fun i hi => ?_, rfl⟩
    · have : 2 * flat.length + 2 ≤ L - 1 := h6
      omega
    · have : 2 * (i + 1) + l.isIn (flat.length - 1 - i) ≤ L - 1 := h7 i hi
      omega
  · rintro ⟨h1, h2, h3, h4, h5, h6, rfl⟩
    refine ⟨by omega, _, ⟨by omega, by omega, fun Ts hTs => by have := h5 Ts hTs; omega, rfl⟩, flat,
      ⟨by rw [List.length_map]; omega, rfl⟩, _, ⟨by omega, fun i hi => by have := h6 i hi; omega, rfl⟩, by omega, rfl⟩

example : let l : Levels Nat := ⟨1, fun _ => 3, fun _ => 2, fun _ => 2⟩
    manyResult l (fun Ts => [Ts.sum % 2, 7]) [[1, 2], [3]] 11 = some [0, 1, 7] ∧ manyResult l (fun Ts => [Ts.sum % 2, 7]) [[1, 2], [3]] 10 = none := by decide

/-- So whatever the functor returns - even if it returns the same type for all combinations - and whatever else is needed, a limit of 900 nested instantiations restricts
`variant_transform()` to 448 combinations of alternatives, and with the recommended limit of 1024 to 510. -/
theorem C165_limit [DecidableEq Ty] (l : Levels Ty) (isVoid : Ty → Bool) (resTy : List Ty → Ty) (args : List (List Ty)) :
    ((transformResult l isVoid resTy args 900).isSome → (args.map List.length).prod ≤ 448) ∧
    ((transformResult l isVoid resTy args 1024).isSome → (args.map List.length).prod ≤ 510) := by
  constructor <;>
  · intro h
    obtain ⟨R, hR⟩ := Option.isSome_iff_exists.1 h
    have := ((C165_transform l isVoid resTy args _ R).1 hR).1
    omega

example : (transformResult (⟨1, fun _ => 3, fun _ => 2, fun _ => 2⟩ : Levels Nat) (· == 0) (fun _ => 1) [List.range 448] 900).isSome := by
  rw [Option.isSome_iff_exists]
  refine ⟨[1], (C165_transform ..).2 ⟨by simp, by simp, by simp, by simp, fun i T hi => ?_, fun i hi => ?_, ?_⟩⟩
  · have := (List.getElem?_eq_some_iff.1 hi).1
    simp only [List.length_map, combinations_length, List.map_cons, List.length_range, List.map_nil, List.prod_cons, List.prod_nil] at this
    show 2 * (i + 1) + 2 + 1 ≤ 900
    omega
  · have h := Nat.lt_of_lt_of_le hi (List.length_filter_le _ _)
    simp only [List.length_map, combinations_length, List.map_cons, List.length_range, List.map_nil, List.prod_cons, List.prod_nil] at h
    show 2 * (i + 1) + 2 + 1 ≤ 900
    omega
  · have h : ((Spec.combinations [List.range 448]).map fun _ => 1) = List.replicate (447 + 1) 1 := by
      rw [List.map_const', combinations_length]; simp
    rw [h, List.filter_replicate]
    simp only [Nat.reduceBEq, Bool.not_false, if_true]
    exact (List.replicate_dedup (by omega)).symm

/-- Searching for the only type which matches looks at all types, wherever the match is; its result is that of C46. -/
theorem C165_search (c : Nat) (q : Ty → Nat) (pred : Ty → Bool) (Ts : List Ty) (L : Nat) (r : Int) : search true c q pred Ts L = some r ↔
    2 * Ts.length + 2 + c ≤ L ∧ (∀ i T, Ts[i]? = some T → 2 * (i + 1) + q T ≤ L) ∧ r = searchTupleElementIndex true pred Ts := by
  simp only [search, inst_iff, search0_unique, searchTupleElementIndex]
  constructor
  · rintro ⟨h1, h2, h3, h4⟩
    exact ⟨by omega, fun i T hi => by have := h3 i T hi; omega, h4⟩
  · rintro ⟨h1, h2, h3⟩
    exact ⟨by omega, by omega, fun i T hi => by have := h2 i T hi; omega, h3⟩

example : search true 1 (fun _ => 2) (· == 1) [1, 2, 3] 9 = some 0 ∧ search true 1 (fun _ => 2) (· == 1) [1, 2, 3] 8 = none ∧
    search true 1 (fun _ => 2) (· == 1) [1, 2, 1] 9 = some (-2) := by decide

/-- Searching for the first type which matches needs nothing for the types behind it. -/
theorem C165_search_first (c : Nat) (q : Ty → Nat) (pred : Ty → Bool) (T : Ty) (Us Ts : List Ty) (hT : pred T = true) (hU : ∀ U ∈ Us, pred U = false) (L : Nat) (r : Int) :
    search false c q pred (Us ++ T :: Ts) L = some r ↔
      2 * Us.length + 3 + c ≤ L ∧ (∀ i U, (Us ++ [T])[i]? = some U → 2 * (i + 1) + q U ≤ L) ∧ r = Us.length := by
  simp only [search, inst_iff, search0_found c q pred T Us Ts hT hU]
  constructor
  · rintro ⟨h1, h2, h3, h4⟩
    exact ⟨by omega, fun i T hi => by have := h3 i T hi; omega, by omega⟩
  · rintro ⟨h1, h2, h3⟩
    exact ⟨by omega, by omega, fun i T hi => by have := h2 i T hi; omega, by omega⟩

example : search false 1 (fun _ => 1) (· == 1) [2, 1, 3, 1] 6 = some 1 ∧ search false 1 (fun _ => 1) (· == 1) [2, 1, 3, 1] 5 = none := by decide

end Makeshift.Props
