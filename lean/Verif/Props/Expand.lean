import Verif.Lemmas.Expand

/-! Property theorems C14, C15, C16: lookup of runtime values, `expand`, `try_expand`, `expand_failfast`. -/

namespace Makeshift.Props

open Spec

/-- `int`, `unsigned` and `signed char` of the platform, used in examples and witnesses. -/
def tInt : IntTy := ⟨32, true⟩
def tUInt : IntTy := ⟨32, false⟩
def tSChar : IntTy := ⟨8, true⟩

/-! ## C15 -/

/-- The compile-time sortedness test decides sortedness. -/
theorem C15_sorted_test {α : Type} {lt eq : α → α → Bool} (ho : LinearOps lt eq) (values : List α) :
    areValuesSorted lt values = true ↔ SortedBy lt values := areValuesSorted_iff ho values

/-- On a sorted list, of any length and with duplicates, the binary search returns normally (in particular it never
reads out of bounds, which would be `.ub`) and its result is exact. -/
theorem C15_binary_search_exact {α : Type} {lt eq : α → α → Bool} (ho : LinearOps lt eq) (values : List α) (value : α)
    (hs : SortedBy lt values) : ∃ i, binarySearch lt eq value values = .ok i ∧ ExactIndex values value i :=
  binarySearch_exact ho value values hs

example : LinearOps (fun a b : Int => decide (a < b)) (fun a b => decide (a = b)) ∧
    SortedBy (fun a b : Int => decide (a < b)) [-7, 2, 2, 2, 5, 9] := ⟨intOps, by unfold SortedBy; decide⟩

/-! ## C16 -/

/-- The compile-time contiguity test decides whether the list is a run, provided that no element but the last is the
maximum of a type as wide as `int`. -/
theorem C16_contiguity_test_partial {t : IntTy} (ht : StdWidth t) (v0 : Int) (rest : List Int)
    (hx : ∀ x ∈ v0 :: rest, t.InRange x) (hw : 32 ≤ t.bits → ∀ x ∈ (v0 :: rest).dropLast, x ≠ t.maxVal) :
    areValuesContiguous t (v0 :: rest) = .ok (decide (v0 :: rest = run v0 (rest.length + 1))) := by
  have h0 := hx v0 (by simp)
  simp only [areValuesContiguous, wrap_id ht h0, run_succ,
    areContiguousFrom_spec ht v0 rest h0 (fun x h => hx x (by simp [h])) hw]
  simp

example : StdWidth tInt ∧ (∀ x ∈ ([5, 6, 2147483647] : List Int), tInt.InRange x) ∧
    (32 ≤ tInt.bits → ∀ x ∈ ([5, 6, 2147483647] : List Int).dropLast, x ≠ tInt.maxVal) := by
  simp [StdWidth, tInt, IntTy.InRange, IntTy.minVal, IntTy.maxVal]

/-- On a run of `n` consecutive values of the type, the constant-time lookup is exact, provided that the difference
between the runtime value and the first listed value is representable. The proviso is void for unsigned types and for
types narrower than `int`. -/
theorem C16_contiguous_lookup_exact_partial {t : IntTy} (ht : StdWidth t) (v0 : Int) (n : Nat) (value : Int)
    (hv : t.InRange value) (h0 : t.InRange v0) (hn : n < 2 ^ 63)
    (hd : t.signed = true → 32 ≤ t.bits → value - v0 ≤ t.maxVal) :
    ∃ i, searchContiguous t value v0 n = .ok i ∧ ExactIndex (run v0 n) value i :=
  searchContiguous_exact ht hv h0 hn hd

example : StdWidth tInt ∧ tInt.InRange 7 ∧ tInt.InRange (-5) ∧ 20 < 2 ^ 63 ∧
    (tInt.signed = true → 32 ≤ tInt.bits → (7 : Int) - (-5) ≤ tInt.maxVal) := by
  simp [StdWidth, tInt, IntTy.InRange, IntTy.minVal, IntTy.maxVal]

/-- The constant-time lookup has undefined behaviour exactly when the difference overflows: the type is signed, at
least as wide as `int`, and the runtime value exceeds the first listed value by more than the maximum of the type. -/
theorem C16_lookup_ub_iff {t : IntTy} (ht : StdWidth t) (v0 : Int) (n : Nat) (value : Int)
    (hv : t.InRange value) (h0 : t.InRange v0) (hn : n < 2 ^ 63) :
    searchContiguous t value v0 n = .ub ↔ t.signed = true ∧ 32 ≤ t.bits ∧ value - v0 > t.maxVal := by
  constructor
  · intro h
    by_contra hc
    obtain ⟨i, hi, -⟩ := searchContiguous_exact (n := n) ht hv h0 hn
      (fun h1 h2 => by by_contra h3; exact hc ⟨h1, h2, by omega⟩)
    rw [h] at hi; simp at hi
  · rintro ⟨h1, h2, h3⟩
    have hmax : 0 ≤ t.maxVal := by
      obtain ⟨b, s⟩ := t
      simp only at h1; subst h1
      rcases ht with h' | h' | h' | h' <;> simp only at h' <;> subst h' <;> simp [IntTy.maxVal]
    simp only [searchContiguous, wrap_id ht hv, wrap_id ht h0, sub_overflow ht h1 h2 h3]
    rw [if_neg (by omega)]
    rfl

/-- `searchContiguous` on `int{-2}`, `{-2, -1}` with runtime value `INT_MAX`: undefined behaviour, though the value is
simply not in the list. -/
theorem C16_difference_overflows : areValuesContiguous tInt [-2, -1] = .ok true ∧ tInt.InRange 2147483647 ∧
    searchIntegral tInt 2147483647 [-2, -1] = .ub := by decide

/-- The list `{UINT_MAX, 0}` is taken for contiguous, and its second member is not found. -/
theorem C16_wrapped_run_not_found : areValuesContiguous tUInt [4294967295, 0] = .ok true ∧
    searchIntegral tUInt 0 [4294967295, 0] = .ok (-1) := by decide

/-- The list `{INT_MAX, 5}`, which is not contiguous, cannot be used at all: the compile-time test overflows. -/
theorem C16_max_before_end_rejected : areValuesContiguous tInt [2147483647, 5] = .ub := by decide

/-- The runtime value's type, not that of the list, is used for the comparison: for a runtime value of type
`signed char`, the `int` list `{256, 257}` is found to contain 0. -/
theorem C16_narrowing_finds_absent_value : searchIntegral tSChar 0 [256, 257] = .ok 0 ∧
    (0 : Int) ∉ ([256, 257] : List Int) := by decide

/-! ## C14 -/

/-- Values of a type that is neither an enumeration nor integral, with or without an order: `expand` is exact for every
list and every runtime value. -/
theorem C14_expand_general {α : Type} (lt : Option (α → α → Bool)) (eq : α → α → Bool)
    (heq : ∀ a b, eq a b = true ↔ a = b) (hlt : ∀ f, lt = some f → LinearOps f eq) (values : List α) (value : α) :
    ExpandSpec values value (fun mode => expandWith mode (searchGeneral lt eq value values) values) := by
  have : ∃ i, searchGeneral lt eq value values = .ok i ∧ ExactIndex values value i := by
    unfold searchGeneral
    cases lt with
    | none => exact ⟨_, rfl, linearSearch_exact heq value values⟩
    | some f =>
      simp only
      by_cases hs : areValuesSorted f values = true
      · rw [if_pos hs]
        exact binarySearch_exact (hlt f rfl) value values ((areValuesSorted_iff (hlt f rfl) values).mp hs)
      · rw [if_neg hs]
        exact ⟨_, rfl, linearSearch_exact heq value values⟩
  obtain ⟨i, hi, he⟩ := this
  rw [hi]
  exact expandSpec_of_exact he

example : (∀ a b : Str, decide (a = b) = true ↔ a = b) ∧
    (∀ f : Str → Str → Bool, (none : Option (Str → Str → Bool)) = some f → LinearOps f (fun a b => decide (a = b))) := by
  simp

/-- Values of integral, enumeration or Boolean type. Missing for the full claim: lists in which the maximum of a type
as wide as `int` stands before the end (`C14_expand_misses_listed_value`, `C16_max_before_end_rejected`), and, for signed
types as wide as `int`, contiguous lists and runtime values whose difference to the first element is not representable
(`C14_expand_ub`). -/
theorem C14_expand_integral_partial {t : IntTy} (ht : StdWidth t) (values : List Int) (value : Int)
    (hx : ∀ x ∈ values, t.InRange x) (hv : t.InRange value) (hn : values.length < 2 ^ 63)
    (hw : 32 ≤ t.bits → ∀ x ∈ values.dropLast, x ≠ t.maxVal)
    (hd : t.signed = true → 32 ≤ t.bits → ∀ v0, values.head? = some v0 → value - v0 ≤ t.maxVal) :
    ExpandSpec values value (fun mode => expandWith mode (searchIntegral t value values) values) := by
  cases values with
  | nil =>
    have : searchIntegral t value [] = .ok (-1) := by
      simp only [searchIntegral, areValuesContiguous, Outcome.bind_ok, searchGeneral, areValuesSorted, if_true, binarySearch]
      unfold binarySearchLoop; simp
    rw [this]
    exact expandSpec_of_exact (Or.inl ⟨rfl, by simp⟩)
  | cons v0 rest =>
    have h1 := C16_contiguity_test_partial ht v0 rest hx hw
    by_cases hr : v0 :: rest = run v0 (rest.length + 1)
    · obtain ⟨i, hi, he⟩ := searchContiguous_exact (n := rest.length + 1) ht hv (hx v0 (by simp)) (by simpa using hn)
        (fun h2 h3 => hd h2 h3 v0 rfl)
      have : searchIntegral t value (v0 :: rest) = .ok i := by
        unfold searchIntegral
        rw [h1, decide_eq_true hr]
        simpa using hi
      rw [this]
      exact expandSpec_of_exact (hr ▸ he)
    · have : searchIntegral t value (v0 :: rest) =
          searchGeneral (some (fun a b => decide (a < b))) (fun a b => decide (a = b)) value (v0 :: rest) := by
        unfold searchIntegral
        rw [h1, decide_eq_false hr]
        simp
      rw [this]
      exact C14_expand_general _ _ intOps.eq_iff (fun f hf => by cases hf; exact intOps) _ _

example : StdWidth tInt ∧ (∀ x ∈ ([3, -4, 2147483647] : List Int), tInt.InRange x) ∧ tInt.InRange 12 ∧
    (32 ≤ tInt.bits → ∀ x ∈ ([3, -4, 2147483647] : List Int).dropLast, x ≠ tInt.maxVal) ∧
    (tInt.signed = true → 32 ≤ tInt.bits → ∀ v0, ([3, -4, 2147483647] : List Int).head? = some v0 →
      12 - v0 ≤ tInt.maxVal) := by
  simp [StdWidth, tInt, IntTy.InRange, IntTy.minVal, IntTy.maxVal]

/-- Types narrower than `int` (`char`, `short`, enumerations over them): no proviso. -/
theorem C14_expand_narrow {t : IntTy} (ht : t.bits = 8 ∨ t.bits = 16) (values : List Int) (value : Int)
    (hx : ∀ x ∈ values, t.InRange x) (hv : t.InRange value) (hn : values.length < 2 ^ 63) :
    ExpandSpec values value (fun mode => expandWith mode (searchIntegral t value values) values) :=
  C14_expand_integral_partial (by rcases ht with h | h <;> simp [StdWidth, h]) values value hx hv hn
    (fun h => by omega) (fun _ h => by omega)

example : (tSChar.bits = 8 ∨ tSChar.bits = 16) ∧ (∀ x ∈ ([127, -128, 3] : List Int), tSChar.InRange x) ∧
    tSChar.InRange (-128) ∧ ([127, -128, 3] : List Int).length < 2 ^ 63 := by
  simp [tSChar, IntTy.InRange, IntTy.minVal, IntTy.maxVal]

/-- `expand(0u, {UINT_MAX, 0})` throws although 0 is listed. -/
theorem C14_expand_misses_listed_value : (0 : Int) ∈ ([4294967295, 0] : List Int) ∧
    expandWith .throwing (searchIntegral tUInt 0 [4294967295, 0]) [4294967295, 0] =
      .throw (str "unsupported runtime value") := by decide

/-- `expand(INT_MAX, {-2, -1})` has undefined behaviour instead of throwing. -/
theorem C14_expand_ub : expandWith .throwing (searchIntegral tInt 2147483647 [-2, -1]) [-2, -1] = .ub := by decide

end Makeshift.Props
