import Verif.Model.MachineInt

/-!
# `range` and `index_range`

Model of `ranges.hpp` lines 30-119, `detail/ranges.hpp` lines 25-144 and `iterator.hpp` lines 22-200.

Random access iterators are positions in an array of `len` elements; moving an iterator out of `[0, len]` is undefined.
`gsl::index`, `gsl::diff` and `std::ptrdiff_t` have 64 bits and so has `std::size_t`.
-/

namespace Makeshift

variable {α : Type}

/-- `it + d` for an iterator into an array of `len` elements ([expr.add]). -/
def iterAdd (len : Nat) (it d : Int) : Outcome Int := if 0 ≤ it + d ∧ it + d ≤ len then .ok (it + d) else .ub

/-- `*it`. -/
def iterRead (array : List α) (it : Int) : Outcome α :=
  if it < 0 then .ub else match array[it.toNat]? with
    | some x => .ok x
    | none => .ub

/-- `it[i]`, that is `*(it + i)`. -/
def iterSubscript (array : List α) (it d : Int) : Outcome α := (iterAdd array.length it d).bind (iterRead array)

/-- detail/ranges.hpp:41-65 `random_access_range_base`: `first_`, `last_`. -/
structure DynRange where
  first : Int
  last : Int
  deriving DecidableEq, Repr

/-- detail/ranges.hpp:56-59 `random_access_range_base::size`. -/
def DynRange.size (r : DynRange) : Int := IntTy.sizeT.wrap (r.last - r.first)

/-- detail/ranges.hpp:60-64 `random_access_range_base::operator []`; `i` is a `std::size_t`, so the difference is converted to
`std::size_t` for the comparison. -/
def DynRange.get (array : List α) (r : DynRange) (i : Int) : Outcome α :=
  (Outcome.expects (decide (i < IntTy.sizeT.wrap (r.last - r.first)))).bind fun _ => iterSubscript array r.first i

/-- detail/ranges.hpp:66-93 `static_random_access_range_base`: `first_`; the extent is a template argument. -/
structure StaticRange where
  first : Int
  extent : Nat
  deriving DecidableEq, Repr

/-- detail/ranges.hpp:83 `static_random_access_range_base::end`. -/
def StaticRange.end (len : Nat) (r : StaticRange) : Outcome Int := iterAdd len r.first r.extent

/-- detail/ranges.hpp:84-87 `static_random_access_range_base::size`. -/
def StaticRange.size (r : StaticRange) : Nat := r.extent

/-- detail/ranges.hpp:88-92 `static_random_access_range_base::operator []`. -/
def StaticRange.get (array : List α) (r : StaticRange) (i : Int) : Outcome α :=
  (Outcome.expects (decide (i < r.extent))).bind fun _ => iterSubscript array r.first i

/-- ranges.hpp:37-40 `range(first, last)` with dynamic extent. -/
def makeDynFromPair (first last : Int) : Outcome DynRange := .ok ⟨first, last⟩

/-- ranges.hpp:37-40 with static extent: `last` is dropped (detail/ranges.hpp:77-80). -/
def makeStaticFromPair (extent : Nat) (first _last : Int) : Outcome StaticRange := .ok ⟨first, extent⟩

/-- ranges.hpp:41-49 `range(start, extentC)` with dynamic extent and a run-time `extentC`. -/
def makeDynFromExtent (len : Nat) (start extentC : Int) : Outcome DynRange :=
  (iterAdd len start extentC).bind fun last => .ok ⟨start, last⟩

/-- ranges.hpp:41-49 with static extent and a run-time `extentC`: the base class is constructed first, then the extents are
compared.  (A compile-time `extentC` must match by `static_assert`.) -/
def makeStaticFromExtent (len extent : Nat) (start extentC : Int) : Outcome StaticRange :=
  (iterAdd len start extentC).bind fun _ =>
    (Outcome.expects (decide (extentC = extent))).bind fun _ => .ok ⟨start, extent⟩

/-- ranges.hpp:89-119 `index_range`. -/
structure IndexRange where
  first : Int
  last : Int
  deriving DecidableEq, Repr

/-- ranges.hpp:99-103. -/
def indexRange1 (num : Int) : Outcome IndexRange := (Outcome.expects (decide (num ≥ 0))).bind fun _ => .ok ⟨0, num⟩

/-- ranges.hpp:104-108. -/
def indexRange2 (first last : Int) : Outcome IndexRange :=
  (Outcome.expects (decide (first ≤ last))).bind fun _ => .ok ⟨first, last⟩

/-- iterator.hpp:22-35 `index_iterator`: its `i_`. -/
structure IndexIt where
  i : Int
  deriving DecidableEq, Repr

/-- ranges.hpp:109-113 `begin`. -/
def IndexRange.begin (r : IndexRange) : IndexIt := ⟨r.first⟩
/-- ranges.hpp:114-118 `end`. -/
def IndexRange.end (r : IndexRange) : IndexIt := ⟨r.last⟩

namespace IndexIt

/-- iterator.hpp:36-40 `operator *`. -/
def deref (it : IndexIt) : Int := it.i
/-- iterator.hpp:42-47 `operator ++`. -/
def inc (it : IndexIt) : Outcome IndexIt := (IntTy.ptrdiffT.arith (it.i + 1)).bind fun i => .ok ⟨i⟩
/-- iterator.hpp:117-122 `operator --`. -/
def dec (it : IndexIt) : Outcome IndexIt := (IntTy.ptrdiffT.arith (it.i - 1)).bind fun i => .ok ⟨i⟩
/-- iterator.hpp:136-141 `operator +=`; 149-160 `operator +`. -/
def add (it : IndexIt) (offset : Int) : Outcome IndexIt := (IntTy.ptrdiffT.arith (it.i + offset)).bind fun i => .ok ⟨i⟩
/-- iterator.hpp:142-147 `operator -=`; 161-166 `operator -`. -/
def sub (it : IndexIt) (offset : Int) : Outcome IndexIt := (IntTy.ptrdiffT.arith (it.i - offset)).bind fun i => .ok ⟨i⟩
/-- iterator.hpp:167-171 difference. -/
def diff (lhs rhs : IndexIt) : Outcome Int := IntTy.ptrdiffT.arith (lhs.i - rhs.i)
/-- iterator.hpp:49-53 `operator ==`. -/
def eq (lhs rhs : IndexIt) : Bool := lhs.i == rhs.i
/-- iterator.hpp:54-58 `operator !=`. -/
def ne (lhs rhs : IndexIt) : Bool := lhs.i != rhs.i
/-- iterator.hpp:173-177 `operator <`. -/
def lt (lhs rhs : IndexIt) : Bool := lhs.i < rhs.i
/-- iterator.hpp:178-182 `operator <=`. -/
def le (lhs rhs : IndexIt) : Bool := lhs.i ≤ rhs.i
/-- iterator.hpp:183-187 `operator >`. -/
def gt (lhs rhs : IndexIt) : Bool := lhs.i > rhs.i
/-- iterator.hpp:188-192 `operator >=`. -/
def ge (lhs rhs : IndexIt) : Bool := lhs.i ≥ rhs.i
/-- iterator.hpp:194-198 `operator []`. -/
def subscript (it : IndexIt) (offset : Int) : Outcome Int := IntTy.ptrdiffT.arith (it.i + offset)

end IndexIt

/-- `for (auto index : indices)`: the values seen, with at most `fuel` tests of the condition; `none` if not finished. -/
def indexLoop (stop : IndexIt) : Nat → IndexIt → Option (Outcome (List Int))
  | 0, _ => none
  | fuel + 1, it =>
    if it.ne stop then
      match it.inc with
      | .ok it' => (indexLoop stop fuel it').map fun r => r.bind fun rest => .ok (it.deref :: rest)
      | .throw m => some (.throw m)
      | .failFast => some .failFast
      | .ub => some .ub
    else some (.ok [])

/-- The loop over an `index_range`. -/
def IndexRange.iterate (r : IndexRange) (fuel : Nat) : Option (Outcome (List Int)) := indexLoop r.end fuel r.begin

end Makeshift
