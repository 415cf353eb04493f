import Verif.Model.Fill
import Verif.Model.PermutationInt

/-!
# Sorting by indices

A client program which sorts a range by sorting an array of indices, and permutes further ranges in the same way.  It is put together of
`range_iota` (algorithm.hpp:109-119) and `apply_permutation` (experimental/algorithm.hpp:26-58), as modelled in the files imported here, and
`std::sort` or `std::stable_sort`:

    template <typename I, typename Row, typename Less>
    void sort_indices(std::vector<I>& indices, std::vector<Row> const& rows, Less less)
    {
        range_iota(indices, I(0));
        std::sort(indices.begin(), indices.end(), [&](I i, I j) { return less(rows[i], rows[j]); });
    }

    sort_indices(indices, rows, less);
    auto copy = indices;
    apply_permutation(rows.begin(), rows.end(), indices.begin());
    apply_permutation(others.begin(), others.end(), copy.begin());

The standard algorithm is a parameter; comparisons neither throw nor change anything.
-/

namespace Makeshift.SortByIndex

/-- The functor passed to `std::sort`, for valid indices. -/
def lessAt {α : Type} (less : α → α → Bool) (rows : List α) (i j : Int) : Bool :=
  match rows[i.toNat]?, rows[j.toNat]? with
  | some a, some b => less a b
  | _, _ => false

/-- `std::sort(indices.begin(), indices.end(), ...)`: every index is used to access `rows` (if there are at least two; a single index is treated alike). -/
def callSort {α : Type} (sort : (Int → Int → Bool) → List Int → List Int) (less : α → α → Bool) (rows : List α) (indices : List Int) : Outcome (List Int) :=
  if ∀ x ∈ indices, 0 ≤ x ∧ x < rows.length then .ok (sort (lessAt less rows) indices) else .ub

/-- `sort_indices(indices, rows, less)` with indices of type `ty`. -/
def sortIndices {α : Type} (ty : IntTy) (sort : (Int → Int → Bool) → List Int → List Int) (less : α → α → Bool) (rows : List α) (indices : List Int) :
    Outcome (List Int) :=
  (rangeIota ty.inc id indices 0).bind fun idx => callSort sort less rows idx

/-- `sort_indices(indices, rows, less); apply_permutation(rows.begin(), rows.end(), indices.begin());`; the number of iterations is at most `fuel`. -/
def sortBy {α : Type} (ty : IntTy) (sort : (Int → Int → Bool) → List Int → List Int) (less : α → α → Bool) (rows : List α) (indices : List Int) (fuel : Nat) :
    Outcome (Option (PermEnd × PermState α)) :=
  (sortIndices ty sort less rows indices).bind fun idx => .ok (PermInt.applyPermutation ty fuel ⟨rows, idx⟩)

/-- The program above, with (`copy`) or without the copy of the indices; if the first call of `apply_permutation` does not return, the result is that of
this call. -/
def sortBoth {α β : Type} (copy : Bool) (ty : IntTy) (sort : (Int → Int → Bool) → List Int → List Int) (less : α → α → Bool) (rows : List α)
    (others : List β) (indices : List Int) (fuel : Nat) : Outcome (Option (PermEnd × List α × List β)) :=
  (sortIndices ty sort less rows indices).bind fun idx =>
    match PermInt.applyPermutation ty fuel ⟨rows, idx⟩ with
    | some (.done, s) =>
      .ok ((PermInt.applyPermutation ty fuel ⟨others, if copy then idx else s.idx⟩).map fun r => (r.1, s.elems, r.2.elems))
    | some (e, s) => .ok (some (e, s.elems, others))
    | none => .ok none

end Makeshift.SortByIndex
