import Verif.Model.Ranges
import Verif.Model.SoaSpan
import Verif.Model.TypeEnum
import Verif.Model.Expand
import Verif.Model.Unchecked

/-!
# Ranges, spans, type enumerations and expansion with contract checks switched on or off

The functions of `ranges.hpp`, `detail/ranges.hpp`, `experimental/span.hpp`, `experimental/detail/span.hpp`, `experimental/detail/enum.hpp` and
`variant.hpp` which contain `gsl_Expects`, with the configuration of gsl-lite as a parameter (see `Model/Unchecked.lean`).  What follows
a check is modelled for arguments which do not satisfy it too: conversions between `std::size_t` and `std::ptrdiff_t` wrap around, and
a pointer must not be moved out of its array (or behind its end).  Iterators of ranges are pointers.
-/

namespace Makeshift.Unchecked

open Makeshift

variable {α : Type}

/-! ## ranges -/

/-- detail/ranges.hpp:60-64 `random_access_range_base::operator []`. -/
def dynGet (c : Checks) (array : List α) (r : DynRange) (i : Int) : Outcome α :=
  (c.expects (decide (i < IntTy.sizeT.wrap (r.last - r.first)))).bind fun _ => iterSubscript array r.first i

/-- detail/ranges.hpp:88-92 `static_random_access_range_base::operator []`. -/
def staticGet (c : Checks) (array : List α) (r : StaticRange) (i : Int) : Outcome α :=
  (c.expects (decide (i < r.extent))).bind fun _ => iterSubscript array r.first i

/-- ranges.hpp:41-49 with static extent and a run-time `extentC`. -/
def makeStaticFromExtent (c : Checks) (len extent : Nat) (start extentC : Int) : Outcome StaticRange :=
  (iterAdd len start extentC).bind fun _ => (c.expects (decide (extentC = extent))).bind fun _ => .ok ⟨start, extent⟩

/-- ranges.hpp:99-103 `index_range(num)`. -/
def indexRange1 (c : Checks) (num : Int) : Outcome IndexRange := (c.expects (decide (num ≥ 0))).bind fun _ => .ok ⟨0, num⟩

/-- ranges.hpp:104-108 `index_range(first, last)`. -/
def indexRange2 (c : Checks) (first last : Int) : Outcome IndexRange :=
  (c.expects (decide (first ≤ last))).bind fun _ => .ok ⟨first, last⟩

/-! ## `soa_span` -/

/-- experimental/detail/span.hpp:230-246 `check_all_equal`. -/
def checkAllEqual (c : Checks) : List Nat → Outcome Nat
  | [] => .ok 0
  | [v] => .ok v
  | v :: v' :: vs => (checkAllEqual c (v' :: vs)).bind fun result => (c.expects (decide (v = result))).bind fun _ => .ok result

/-- experimental/span.hpp:56-61: the constructor, from pointers and sizes of the `gsl::span<>` arguments. -/
def makeSpan (c : Checks) (cols : List (Soa.Ptr × Nat)) : Outcome Soa.Span :=
  (checkAllEqual c (cols.map (·.2))).bind fun n => .ok ⟨cols.map (·.1), n⟩

/-- `p + d` for a pointer and a `std::ptrdiff_t` ([expr.add]). -/
def ptrAdd (st : Soa.State α) (d : Int) (p : Soa.Ptr) : Outcome Soa.Ptr :=
  if 0 ≤ (p.off : Int) + d ∧ (p.off : Int) + d ≤ (st.cells p.arr).length then .ok ⟨p.arr, ((p.off : Int) + d).toNat⟩ else .ub

/-- The `tuple_transform()` of experimental/span.hpp:126-132. -/
def ptrsAdd (st : Soa.State α) (d : Int) : List Soa.Ptr → Outcome (List Soa.Ptr)
  | [] => .ok []
  | p :: ps => (ptrAdd st d p).bind fun q => (ptrsAdd st d ps).bind fun qs => .ok (q :: qs)

/-- experimental/span.hpp:117-135 `subspan`.  The offset is converted to `std::ptrdiff_t` (127); `size_ - offset` is computed in
`std::size_t` (124). -/
def subspan (c : Checks) (st : Soa.State α) (s : Soa.Span) (offset count : Nat) : Outcome Soa.Span :=
  (c.expects (decide (offset ≤ s.size) && (decide (count = Soa.npos) || decide (count ≤ s.size - offset)))).bind fun _ =>
  let newSize := if count ≠ Soa.npos then count else (IntTy.sizeT.wrap ((s.size : Int) - offset)).toNat
  (ptrsAdd st (IntTy.ptrdiffT.wrap offset) s.data).bind fun data => .ok ⟨data, newSize⟩

/-- experimental/span.hpp:136-140 `first`. -/
def first (c : Checks) (st : Soa.State α) (s : Soa.Span) (count : Nat) : Outcome Soa.Span := subspan c st s 0 count

/-- experimental/span.hpp:141-147 `last`; `size() - count` is computed in `std::size_t`. -/
def last (c : Checks) (st : Soa.State α) (s : Soa.Span) (count : Nat) : Outcome Soa.Span :=
  (c.expects (decide (count ≤ s.size))).bind fun _ => subspan c st s (IntTy.sizeT.wrap ((s.size : Int) - count)).toNat count

/-- experimental/span.hpp:95-101 `operator []`. -/
def soaAt (c : Checks) (st : Soa.State α) (b i : Nat) : Outcome Soa.Ref :=
  st.withSpan b fun s => (c.expects (decide (i < s.size))).bind fun _ => .ok ⟨b, IntTy.ptrdiffT.wrap i⟩

/-- experimental/span.hpp:102-108 `front`. -/
def soaFront (c : Checks) (st : Soa.State α) (b : Nat) : Outcome Soa.Ref :=
  st.withSpan b fun s => (c.expects (!s.empty)).bind fun _ => .ok ⟨b, 0⟩

/-- experimental/span.hpp:109-115 `back`. -/
def soaBack (c : Checks) (st : Soa.State α) (b : Nat) : Outcome Soa.Ref :=
  st.withSpan b fun s => (c.expects (!s.empty)).bind fun _ => .ok ⟨b, (s.size : Int) - 1⟩

/-! ## type enumerations, expansion -/

/-- experimental/detail/enum.hpp:65-73 the two explicit constructors of a type enumeration. -/
def typeEnumFromInt {Ty : Type} [DecidableEq Ty] (c : Checks) (Ts : List Ty) (value : Int) : Option (Outcome Int) :=
  if Ts = [] then none
  else
    let v := TypeEnum.int32.wrap value
    some ((c.expects (decide (v ≥ 0) && decide (v < TypeEnum.int32.wrap Ts.length))).bind fun _ => .ok v)

/-- variant.hpp:43-50 `expand_failfast`, given the lookup result. -/
def expandFailfast (c : Checks) (search : Outcome Int) (values : List α) : Outcome α :=
  search.bind fun index => (c.expects (decide (index ≥ 0))).bind fun _ =>
    match at? values index with
    | none => .ub
    | some v => .ok v

end Makeshift.Unchecked
