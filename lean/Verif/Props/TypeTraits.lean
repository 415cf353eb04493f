import Verif.Lemmas.TypeTraits

/-! Property theorems C45, C46, C47: type lists. -/

namespace Makeshift.Props

variable {Ty : Type}

/-! ## C45 -/

/-- Every distinct type of the argument appears exactly once, and no other type appears. -/
theorem C45_unique_sequence [DecidableEq Ty] (Ts : List Ty) (T : Ty) :
    (uniqueSequence Ts).count T = if T ∈ Ts then 1 else 0 := by
  by_cases h : T ∈ Ts
  · rw [if_pos h]
    have := List.nodup_iff_count.mp (nodup_uniqueSequence Ts) T
    have h2 := List.count_pos_iff.mpr ((mem_uniqueSequence T Ts).mpr h)
    omega
  · rw [if_neg h]
    exact List.count_eq_zero.mpr (fun hm => h ((mem_uniqueSequence T Ts).mp hm))

/-- The order is that of the last occurrences: if the last occurrence of `A` precedes that of `B` in the argument, `A`
precedes `B` in the result. -/
theorem C45_ordered_by_last_occurrence [DecidableEq Ty] (xs ys zs : List Ty) (A B : Ty) (hA : A ∉ ys) (hA' : A ∉ zs)
    (hne : A ≠ B) :
    ∃ us vs ws, uniqueSequence (xs ++ A :: (ys ++ B :: zs)) = us ++ A :: (vs ++ B :: ws) := by
  induction xs with
  | nil =>
    have hmem : A ∉ ys ++ B :: zs := by simp [hA, hA', hne]
    have hs : ∃ vs ws, uniqueSequence (ys ++ B :: zs) = vs ++ B :: ws :=
      List.append_of_mem ((mem_uniqueSequence B _).mpr (by simp))
    obtain ⟨vs, ws, h⟩ := hs
    refine ⟨[], vs, ws, ?_⟩
    rw [List.nil_append, uniqueSequence_cons, if_neg hmem, h]; rfl
  | cons x xs ih =>
    obtain ⟨us, vs, ws, h⟩ := ih
    rw [List.cons_append, uniqueSequence_cons]
    split
    · exact ⟨us, vs, ws, h⟩
    · exact ⟨x :: us, vs, ws, by rw [h]; rfl⟩

example : ((1 : Nat) ∉ [3, 2]) ∧ ((1 : Nat) ∉ [4]) ∧ (1 : Nat) ≠ 2 := by decide

/-- Applying `unique_sequence` again changes nothing; more generally it leaves duplicate-free sequences alone. -/
theorem C45_idempotent [DecidableEq Ty] (Ts : List Ty) :
    uniqueSequence (uniqueSequence Ts) = uniqueSequence Ts ∧ (Ts.Nodup → uniqueSequence Ts = Ts) :=
  ⟨uniqueSequence_of_nodup _ (nodup_uniqueSequence Ts), uniqueSequence_of_nodup Ts⟩

example : uniqueSequence [1, 2, 1, 3, 2] = [1, 3, 2] := by decide

/-! ## C46 -/

/-- `search_type_pack_index` yields `k ≥ 0` iff `T` stands at `k` and nowhere else, and -1 iff `T` does not occur exactly
once. -/
theorem C46_type_pack_index [DecidableEq Ty] (T : Ty) (Ts : List Ty) :
    (∀ k : Nat, tryTypePackIndex T Ts = k ↔ Ts[k]? = some T ∧ ∀ j, Ts[j]? = some T → j = k) ∧
    (tryTypePackIndex T Ts = -1 ↔ Ts.count T ≠ 1) := by
  rcases tryTypePackIndex_spec T Ts with ⟨h1, k, h2, h3⟩ | ⟨h1, h2⟩
  · refine ⟨fun k' => ?_, by rw [h2]; constructor <;> intro h <;> omega⟩
    constructor
    · intro h
      have : k = k' := by omega
      subst this
      exact ⟨h3, fun j hj => count_one_unique h1 hj h3⟩
    · rintro ⟨-, h5⟩
      rw [h2, h5 k h3]
  · refine ⟨fun k' => ?_, by simp [h1, h2]⟩
    constructor
    · intro h; omega
    · rintro ⟨h4, h5⟩
      exfalso
      apply h1
      -- exactly one occurrence
      clear h1 h2
      induction Ts generalizing k' with
      | nil => simp at h4
      | cons x Ts ih =>
        by_cases hx : x = T
        · have : T ∉ Ts := fun hm => by
            obtain ⟨j, hj⟩ := List.getElem?_of_mem hm
            have e1 := h5 0 (by simp [hx])
            have e2 := h5 (j + 1) (by simpa using hj)
            omega
          simp [hx, List.count_eq_zero.mpr this]
        · cases k' with
          | zero => simp at h4; exact absurd h4 hx
          | succ k' =>
            simp only [List.count_cons, beq_iff_eq, hx, if_false, Nat.add_zero]
            exact ih k' (by simpa using h4) (fun j hj => by have := h5 (j + 1) (by simpa using hj); omega)

/-- `type_pack_index` is well-formed exactly if `T` occurs exactly once. -/
theorem C46_type_pack_index_well_formed [DecidableEq Ty] (T : Ty) (Ts : List Ty) :
    (typePackIndex T Ts).isSome = true ↔ Ts.count T = 1 := by
  unfold typePackIndex
  have := (C46_type_pack_index T Ts).2
  by_cases h : tryTypePackIndex T Ts = elementNotFound
  · rw [if_pos h]
    have := this.mp h
    simp [this]
  · rw [if_neg h]
    simp only [Option.isSome_some, true_iff]
    by_contra hc
    exact h (this.mpr hc)

/-- `search_tuple_element_index`: -1 iff nothing matches, -2 iff several match, otherwise the position of the only match. -/
theorem C46_tuple_element_index (pred : Ty → Bool) (Ts : List Ty) :
    (searchTupleElementIndex true pred Ts = -1 ↔ Ts.countP pred = 0) ∧
    (searchTupleElementIndex true pred Ts = -2 ↔ 2 ≤ Ts.countP pred) ∧
    (∀ k : Nat, searchTupleElementIndex true pred Ts = k →
      Ts.countP pred = 1 ∧ ∃ T, Ts[k]? = some T ∧ pred T = true) ∧
    (Ts.countP pred = 1 → ∃ k : Nat, searchTupleElementIndex true pred Ts = k) := by
  unfold searchTupleElementIndex
  rcases searchFrom_spec true pred 0 Ts with ⟨h1, h2⟩ | ⟨_, h1, h2⟩ | ⟨h1, k, h2, h3, h4⟩
  · rw [h2, h1]
    exact ⟨by simp, by simp, fun k hk => by omega, by simp⟩
  · rw [h2]
    exact ⟨by omega, by simpa using h1, fun k hk => by omega, fun h => by omega⟩
  · have h1 := h1 rfl
    rw [h2]
    refine ⟨by omega, by omega, fun k' hk => ⟨h1, ?_⟩, fun _ => ⟨k, by omega⟩⟩
    have : k' = k := by omega
    subst this; exact h3

/-- `search_first_tuple_element_index`: -1 iff nothing matches, otherwise the position of the first match. -/
theorem C46_first_tuple_element_index (pred : Ty → Bool) (Ts : List Ty) :
    (searchTupleElementIndex false pred Ts = -1 ∧ ∀ T ∈ Ts, pred T = false) ∨
    ∃ k : Nat, searchTupleElementIndex false pred Ts = k ∧ (∃ T, Ts[k]? = some T ∧ pred T = true) ∧
      ∀ j < k, ∀ U, Ts[j]? = some U → pred U = false := by
  unfold searchTupleElementIndex
  rcases searchFrom_spec false pred 0 Ts with ⟨h1, h2⟩ | ⟨h, _⟩ | ⟨_, k, h2, h3⟩
  · left
    refine ⟨h2, fun T hT => ?_⟩
    have := List.countP_eq_zero.mp h1 T hT
    simpa using this
  · simp at h
  · right; exact ⟨k, by simpa using h2, h3⟩

/-- `tuple_element_index` is well-formed exactly if one element matches. -/
theorem C46_tuple_element_index_well_formed (pred : Ty → Bool) (Ts : List Ty) :
    (tupleElementIndex true pred Ts).isSome = true ↔ Ts.countP pred = 1 := by
  obtain ⟨h1, h2, -, h4⟩ := C46_tuple_element_index pred Ts
  unfold tupleElementIndex elementNotFound elementNotUnique
  simp only
  split
  · rename_i h; have := h1.mp h; simp [this]
  · split
    · rename_i h; have := h2.mp h
      simp only [Option.isSome_none, Bool.false_eq_true, false_iff]; omega
    · rename_i ha hb
      have ha := mt h1.mpr ha
      have hb := mt h2.mpr hb
      simp only [Option.isSome_some, true_iff]; omega

/-- The comment of `search_first_tuple_element_index` (type_traits.hpp:52-54) promises a negative value for a type that
appears more than once; the code yields the first index. -/
theorem C46_first_index_comment_is_wrong :
    searchTupleElementIndex false (fun T => decide (T = 1)) [0, 1, 2, 1] = 1 := by decide

/-- `nth_type` is list indexing. -/
theorem C46_nth_type (i : Nat) (Ts : List Ty) : nthType i Ts = Ts[i]? := by
  unfold nthType
  rw [filter_zipIdx_idx Ts 0 i]
  by_cases h : i < Ts.length
  · simp [h]
  · simp [h]

/-! ## C47 -/

/-- `type_sequence_cat` concatenates; it is associative and empty sequences are neutral. -/
theorem C47_type_sequence_cat (Ts Us : List (List Ty)) (As : List Ty) :
    typeSequenceCat Ts = Ts.flatten ∧
    typeSequenceCat [typeSequenceCat Ts, typeSequenceCat Us] = typeSequenceCat (Ts ++ Us) ∧
    typeSequenceCat [[], As] = As ∧ typeSequenceCat [As, []] = As := by
  simp [typeSequenceCat, typeSequenceCat0_eq]

/-- Filtering keeps exactly the matching types, with multiplicity, in their order. -/
theorem C47_filter_sequence (pred : Ty → Bool) (Ts : List Ty) :
    (filterSequence pred Ts).Sublist Ts ∧
    (∀ T, T ∈ filterSequence pred Ts ↔ T ∈ Ts ∧ pred T = true) ∧
    (filterSequence pred Ts).length = Ts.countP pred := by
  rw [filterSequence_eq]
  exact ⟨List.filter_sublist, fun T => List.mem_filter, by rw [List.countP_eq_length_filter]⟩

/-- `is_in` is membership. -/
theorem C47_is_in [DecidableEq Ty] (T : Ty) (Ts : List Ty) : isIn T Ts = true ↔ T ∈ Ts := isIn_iff T Ts

/-- `is_in_v` is always false, so it differs from `is_in` whenever the type is in the list. -/
theorem C47_is_in_v_always_false [DecidableEq Ty] (T : Ty) (Ts : List Ty) : isInV T Ts = false := by
  simp [isInV, isIn]

theorem C47_is_in_v_agrees_only_if_absent [DecidableEq Ty] (T : Ty) (Ts : List Ty) :
    isInV T Ts = isIn T Ts ↔ T ∉ Ts := by
  rw [C47_is_in_v_always_false, ← isIn_iff]
  cases isIn T Ts <;> simp

example : isIn 3 [1, 2, 3] = true ∧ isInV 3 [1, 2, 3] = false := by decide

/-- `equal_types` holds iff there is a type and all types are the same, which is then the common type. -/
theorem C47_equal_types [DecidableEq Ty] (Ts : List Ty) (T : Ty) :
    equalTypes Ts = some T ↔ Ts ≠ [] ∧ ∀ U ∈ Ts, U = T := equalTypes_spec Ts T

end Makeshift.Props
