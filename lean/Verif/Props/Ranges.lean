import Verif.Lemmas.Ranges

/-! # C36, C37: `index_range` and `range` -/

namespace Makeshift.Props

open Spec

variable {α : Type}

/-! ## C36 -/

/-- `index_range(first, last)` enumerates `first, ..., last - 1`. -/
theorem C36_enumerates (first last : Int) (h : first ≤ last) (hf : IntTy.ptrdiffT.InRange first) (hl : IntTy.ptrdiffT.InRange last)
    (fuel : Nat) (hfuel : (last - first).toNat < fuel) :
    ∃ r, indexRange2 first last = .ok r ∧
      r.iterate fuel = some (.ok ((List.range (last - first).toNat).map fun (k : Nat) => first + (k : Int))) := by
  refine ⟨⟨first, last⟩, by simp [indexRange2, h], ?_⟩
  exact indexLoop_spec (last - first).toNat fuel first last (by omega) hfuel hl hf

/-- `index_range(n)` enumerates `0, ..., n - 1`. -/
theorem C36_enumerates_from_zero (n : Int) (h : 0 ≤ n) (hn : IntTy.ptrdiffT.InRange n) (fuel : Nat) (hfuel : n.toNat < fuel) :
    ∃ r, indexRange1 n = .ok r ∧ r.iterate fuel = some (.ok ((List.range n.toNat).map fun (k : Nat) => (k : Int))) := by
  refine ⟨⟨0, n⟩, by simp [indexRange1, h], ?_⟩
  have := indexLoop_spec n.toNat fuel 0 n (by omega) hfuel hn (by decide)
  simpa [run, IndexRange.iterate, IndexRange.begin, IndexRange.end] using this

/-- Construction fails fast iff the bounds are reversed. -/
theorem C36_fails_iff (first last n : Int) :
    (indexRange2 first last = .failFast ↔ last < first) ∧ (indexRange1 n = .failFast ↔ n < 0) := by
  constructor
  · by_cases h : first ≤ last
    · simp [indexRange2, h]
    · simp [indexRange2, h]; omega
  · by_cases h : 0 ≤ n
    · simp [indexRange1, h]
    · simp [indexRange1, h]; omega

/-- Iterators reached from `begin()` or `end()` (or any position in between) by steps that stay within the bounds: no overflow,
and dereference and subscript agree with positions. -/
theorem C36_walk (first last : Int) (hf : IntTy.ptrdiffT.InRange first) (hl : IntTy.ptrdiffT.InRange last) (p : Int) (ms : List Move)
    (hs : StaysBetween first last ms p) :
    ∃ it, walkIndex ms ⟨p⟩ = .ok it ∧ it.deref = destination ms p ∧
      ∀ d, first ≤ destination ms p + d → destination ms p + d ≤ last → it.subscript d = .ok (destination ms p + d) := by
  obtain ⟨h1, -, -⟩ := walkIndex_spec hf hl ms p hs
  refine ⟨_, h1, rfl, fun d hd1 hd2 => ?_⟩
  exact ptrdiff_arith (between_inRange hf hl hd1 hd2)

/-- Comparisons agree with positions, and so does the difference, provided it is representable. -/
theorem C36_compare (p q : Int) :
    (IndexIt.eq ⟨p⟩ ⟨q⟩ = true ↔ p = q) ∧ (IndexIt.ne ⟨p⟩ ⟨q⟩ = true ↔ p ≠ q) ∧ (IndexIt.lt ⟨p⟩ ⟨q⟩ = true ↔ p < q) ∧
    (IndexIt.le ⟨p⟩ ⟨q⟩ = true ↔ p ≤ q) ∧ (IndexIt.gt ⟨p⟩ ⟨q⟩ = true ↔ p > q) ∧ (IndexIt.ge ⟨p⟩ ⟨q⟩ = true ↔ p ≥ q) ∧
    (IndexIt.diff ⟨p⟩ ⟨q⟩ = if IntTy.ptrdiffT.InRange (p - q) then .ok (p - q) else .ub) := by
  refine ⟨by simp [IndexIt.eq], by simp [IndexIt.ne], by simp [IndexIt.lt], by simp [IndexIt.le], by simp [IndexIt.gt],
    by simp [IndexIt.ge], rfl⟩

example : ∃ r, indexRange2 (-2) 1 = .ok r ∧ r.iterate 4 = some (.ok [-2, -1, 0]) := ⟨⟨-2, 1⟩, by decide, by decide⟩

example : StaysBetween (-2) 5 [.inc, .add 3, .sub 4] 0 ∧ destination [.inc, .add 3, .sub 4] 0 = 0 := by
  simp [StaysBetween, Move.shift, destination]

/-- The distance of `begin()` and `end()` overflows for ranges longer than the largest difference. -/
theorem C36_distance_overflows : ∃ r, indexRange2 (-2) 9223372036854775807 = .ok r ∧ r.end.diff r.begin = .ub :=
  ⟨⟨-2, 9223372036854775807⟩, by decide, by decide⟩

/-! ## C37 -/

/-- A range over part of an array: `size()` is the distance; `operator []` yields the element iff the index is less than it, and
fails fast otherwise. -/
theorem C37_subscript (array : List α) (first last : Nat) (hfl : first ≤ last) (hl : last ≤ array.length)
    (h63 : array.length < 2 ^ 63) (i : Nat) :
    (DynRange.size ⟨first, last⟩ = (last - first : Nat)) ∧
    (∀ h : first + i < last, DynRange.get array ⟨first, last⟩ i = .ok (array[first + i]'(by omega))) ∧
    (last ≤ first + i → DynRange.get array ⟨first, last⟩ i = .failFast) := by
  have hw : IntTy.sizeT.wrap ((last : Int) - first) = (last : Int) - first := sizeT_wrap (by omega) (by omega)
  refine ⟨?_, ?_, ?_⟩
  · simp only [DynRange.size, hw]; omega
  · intro h
    simp only [DynRange.get, hw]
    rw [show (decide ((i : Int) < (last : Int) - first)) = true by simp only [decide_eq_true_eq]; omega]
    simp only [Outcome.expects_true, Outcome.bind_ok]
    exact iterSubscript_ok (by omega) (by omega)
  · intro h
    simp only [DynRange.get, hw]
    rw [show (decide ((i : Int) < (last : Int) - first)) = false by simp only [decide_eq_false_iff_not]; omega]
    rfl

/-- The same for a static extent that fits into the array. -/
theorem C37_static_subscript (array : List α) (first extent : Nat) (hl : first + extent ≤ array.length) (i : Nat) :
    (∀ h : i < extent, StaticRange.get array ⟨first, extent⟩ i = .ok (array[first + i]'(by omega))) ∧
    (extent ≤ i → StaticRange.get array ⟨first, extent⟩ i = .failFast) ∧
    StaticRange.end array.length ⟨first, extent⟩ = .ok (first + extent : Nat) := by
  refine ⟨?_, ?_, ?_⟩
  · intro h
    simp only [StaticRange.get]
    rw [show (decide ((i : Int) < (extent : Int))) = true by simp only [decide_eq_true_eq]; omega]
    simp only [Outcome.expects_true, Outcome.bind_ok]
    exact iterSubscript_ok (by omega) (by omega)
  · intro h
    simp only [StaticRange.get]
    rw [show (decide ((i : Int) < (extent : Int))) = false by simp only [decide_eq_false_iff_not]; omega]
    rfl
  · simp only [StaticRange.end, iterAdd]
    rw [if_pos ⟨by omega, by omega⟩]
    congr 1

example : DynRange.get [10, 11, 12, 13] ⟨1, 3⟩ 1 = .ok 12 ∧ DynRange.get [10, 11, 12, 13] ⟨1, 3⟩ 2 = (.failFast : Outcome Nat) := by
  decide

/-- A range of static extent made from a start and a run-time extent that fits into the array fails fast iff the extents
differ.  (If it does not fit, `C37_extent_check_too_late` applies.) -/
theorem C37_extent_check (len start extent n : Nat) (h : start + n ≤ len) :
    makeStaticFromExtent len extent start n = if n = extent then .ok ⟨start, extent⟩ else .failFast := by
  simp only [makeStaticFromExtent, iterAdd]
  rw [if_pos ⟨by omega, by omega⟩]
  by_cases hn : n = extent
  · subst hn; simp
  · rw [if_neg hn, show (decide ((n : Int) = (extent : Int))) = false by simp only [decide_eq_false_iff_not]; omega]
    rfl

example : makeStaticFromExtent 5 3 1 3 = .ok ⟨1, 3⟩ ∧ makeStaticFromExtent 5 3 1 2 = .failFast := by decide

/-- Finding: the end iterator is computed before the extents are compared, so a mismatching extent that does not fit is undefined
behaviour instead of a failed check - although the end iterator is not even used. -/
theorem C37_extent_check_too_late (len start extent n : Nat) (h : len < start + n) :
    makeStaticFromExtent len extent start n = .ub := by
  simp only [makeStaticFromExtent, iterAdd]
  rw [if_neg (by omega)]
  rfl

/-- Finding: construction from a pair of iterators does not check a static extent.  Whenever the extent exceeds the distance and
the array, the range claims elements that do not exist: reading one is undefined although it passes the bounds check. -/
theorem C37_pair_unchecked (array : List α) (first last extent : Nat) (hlt : array.length < first + extent)
    (hf : first ≤ array.length) :
    ∃ r, makeStaticFromPair extent first last = .ok r ∧ r.size = extent ∧ ∃ i < extent, StaticRange.get array r i = .ub := by
  refine ⟨⟨first, extent⟩, rfl, rfl, array.length - first, by omega, ?_⟩
  simp only [StaticRange.get]
  rw [show (decide (((array.length - first : Nat) : Int) < (extent : Int))) = true by simp only [decide_eq_true_eq]; omega]
  simp only [Outcome.expects_true, Outcome.bind_ok, iterSubscript, iterAdd]
  rw [if_pos ⟨by omega, by omega⟩]
  simp only [Outcome.bind_ok, iterRead]
  rw [if_neg (by omega), List.getElem?_eq_none (by omega)]

example : StaticRange.get [10, 11] ⟨0, 5⟩ 2 = (.ub : Outcome Nat) := by decide

/-- Finding: for a reversed pair of iterators the bounds check compares with a huge unsigned number and passes. -/
theorem C37_reversed_pair : DynRange.size ⟨2, 1⟩ = 2 ^ 64 - 1 ∧ DynRange.get [10, 11] ⟨2, 1⟩ 0 = (.ub : Outcome Nat) := by
  constructor <;> decide

end Makeshift.Props
