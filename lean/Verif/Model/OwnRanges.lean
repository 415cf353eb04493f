import Verif.Model.RangeArgs
import Verif.Model.RangeTypes
import Verif.Model.BufferTypes

/-!
# The range types of the library as arguments of the range algorithms

What the algorithms see (cf. `RangeArgs`) of `index_range`, `range`, `soa_span` and the results of `range_zip` and `range_zip_sentinel`.  For buffers
see `Buffer.Ty.rangeTy`.
-/

namespace Makeshift.OwnRanges

open RangeArgs

/-- ranges.hpp:89-119 `index_range`: `begin` and `end` are const and return iterators by value; there is neither `size()` nor `data()`.
iterator.hpp:37-41, 65-74: `operator *` is const, all member types are declared. -/
def indexRangeTy : Ty := .class {
  begin_ := true, constBegin := true, data := false, constData := false, freeData := false, constSize := false, tupleSize := none
  traits := true, constDeref := true, commonEnd := true }

/-- ranges.hpp:32-50 and detail/ranges.hpp:24-128 `range<It, EndIt, Extent>`; `constDeref`: whether the iterators can be dereferenced if const.
`begin()` returns a reference to the iterator (detail/ranges.hpp:38, 54, 82).  `none`: the type, or the question whether it is a tuple, is
ill-formed (`RangeTypes.tupleSize`). -/
def rangeTy (r : RangeTypes.RangeTy) (constDeref : Bool) : Option Ty :=
  (RangeTypes.rangeBase r).bind fun base => (RangeTypes.isTupleLike r).map fun _ => .class {
    begin_ := true, constBegin := true, data := false, constData := false, freeData := false
    constSize := base ≠ .general
    tupleSize := (RangeTypes.tupleSize r).value?
    traits := false, constDeref := constDeref, commonEnd := r.it = r.endIt }

/-- experimental/span.hpp:34-156 `soa_span<Ts...>` with `columns` member types: `begin`, `end` and `size` are const; there is no `data()`.
experimental/detail/span.hpp:126-145: the member types of the iterator, and its const `operator *`; 260: `std::tuple_size` is the number of
columns. -/
def soaSpanTy (columns : Nat) : Ty := .class {
  begin_ := true, constBegin := true, data := false, constData := false, freeData := false, constSize := true, tupleSize := some columns
  traits := true, constDeref := true, commonEnd := true }

/-- detail/algorithm.hpp:372-400, 441-457 `zip_common_range`, the result of `range_zip`, which always has a size (algorithm.hpp:72): `begin` and `end` are
const; 289-352: `size()`.  The iterators have all member types (117-127), but `operator *` is not const (146). -/
def zipTy : Ty := .class {
  begin_ := true, constBegin := true, data := false, constData := false, freeData := false, constSize := true, tupleSize := none
  traits := true, constDeref := false, commonEnd := true }

/-- detail/algorithm.hpp:428-434 `zip_range`, the result of `range_zip_sentinel`: `end` returns a sentinel (318-322, 347-351). -/
def zipSentinelTy : Ty := .class {
  begin_ := true, constBegin := true, data := false, constData := false, freeData := false, constSize := true, tupleSize := none
  traits := true, constDeref := false, commonEnd := false }

/-- ranges.hpp:109-118 with iterator.hpp: the elements from `begin()` to `end()` of an `index_range`. -/
def indexRangeElems (r : IndexRange) : List Int := (List.range (r.last - r.first).toNat).map fun k : Nat => r.first + k

/-- `range_for(f, span)` for an SoA span with the given number of columns and these rows; `none`: does not compile. -/
def rangeForSoa {α : Type} (columns : Nat) (rows : List α) (const rvalue : Bool) (fuel : Nat) : Option (Result (List (List (Makeshift.Arg α)))) :=
  let a : Argument := ⟨soaSpanTy columns, const, rvalue⟩
  if algorithmCompiles [a] then (toRng a rows).map fun r => rangeFor [r] fuel else none

end Makeshift.OwnRanges
