import Verif.Model.ZipStd
import Verif.Model.MachineInt

/-!
# The member functions of zipped ranges

Model of `zip_range_size_base`, `zip_range_base`, `zip_range_subscript_base`, `zip_range` and `zip_common_range`
(detail/algorithm.hpp:287-468), as returned by `range_zip` (algorithm.hpp:64-75) and `range_zip_sentinel`
(experimental/algorithm.hpp:99-107).  Ranges and iterators are those of `Model.Zip`.
-/

namespace Makeshift.ZipMembers

variable {α : Type}

/-- A zipped range: what `zip_range_size_base` stores (a `std::size_t`, or a constant which is part of the type) and the ranges. -/
structure ZipObj (α : Type) where
  size : Size
  ranges : List (Rng α)
  deriving DecidableEq, Repr

/-- algorithm.hpp:64-75 `range_zip`, experimental/algorithm.hpp:99-107 `range_zip_sentinel`, with the constructors in
detail/algorithm.hpp:295-298, 327-329, 355-357, 385-389; `none` does not compile. -/
def make (rs : List (Rng α)) : Option (Outcome (ZipObj α)) :=
  match mergeSizes (rs.map Rng.size) with
  | .staticMismatch => none
  | .failFast => some .failFast
  | .ok (.static N) => if N = unknownSize then none else some (.ok ⟨.static N, rs⟩)    -- static_assert
  | .ok (.dyn n) => some (.ok ⟨.dyn (IntTy.sizeT.wrap n), rs⟩)

/-- detail/algorithm.hpp:299-302, 330-333 `_size()`. -/
def innerSize (z : ZipObj α) : Size :=
  match z.size with
  | .dyn n => .dyn (IntTy.ptrdiffT.wrap n)
  | .static N => .static N

/-- detail/algorithm.hpp:305-309, 336-340 `size()`. -/
def size (z : ZipObj α) : Int :=
  match z.size with
  | .dyn n => n
  | .static N => IntTy.sizeT.wrap N

/-- detail/algorithm.hpp:310-314, 341-345 `empty()`. -/
def empty (z : ZipObj α) : Bool :=
  match z.size with
  | .dyn n => decide (n = 0)
  | .static N => decide (N = 0)

/-- Whether `size()` and `empty()` can be called in a constant expression for every object, as they are static functions:
detail/algorithm.hpp:336-345 as opposed to 305-314. -/
def sizeIsStatic (z : ZipObj α) : Bool :=
  match z.size with
  | .dyn _ => false
  | .static _ => true

/-- detail/algorithm.hpp:390-394 `begin()`. -/
def begin' (z : ZipObj α) : ZipIt := zipBegin z.ranges

/-- detail/algorithm.hpp:395-399 `common_end()`, 452-462 `end()` of what `range_zip` returns. -/
def end' (z : ZipObj α) : ZipIt := zipEnd (innerSize z) z.ranges

/-- detail/algorithm.hpp:315-319, 346-350 `end()` of what `range_zip_sentinel` returns: the size held by the sentinel. -/
def endSentinel (z : ZipObj α) : Size :=
  match z.size with
  | .dyn n => .dyn (IntTy.ptrdiffT.wrap n)
  | .static N => .static N

/-- detail/algorithm.hpp:412-429 `operator []`, which exists for random access iterators only; `none` does not compile.  The index is
a `std::size_t`, the subscript operator of the iterator expects a `std::ptrdiff_t`. -/
def subscript (cats : List Category) (z : ZipObj α) (i : Int) : Option (Outcome (List (Arg α))) :=
  if ZipStd.hasSubscript cats then some (zipSubscript z.ranges (begin' z) (IntTy.ptrdiffT.wrap i)) else none

/-- The loop `for (std::size_t i = 0; i != z.size(); ++i) use(z[i])` of a client, recording the tuples; `n` is the number of rounds
left. -/
def zipIndexLoop (cats : List Category) (z : ZipObj α) : Nat → Int → List (List (Arg α)) → Option (Result (List (List (Arg α))))
  | 0, _, _ => some .unfinished
  | fuel + 1, i, s =>
    if i = size z then some (.done s (.ok ()))
    else
      match subscript cats z i with
      | none => none
      | some (.ok args) => zipIndexLoop cats z fuel (IntTy.sizeT.wrap (i + 1)) (s ++ [args])
      | some (.throw m) => some (.done s (.throw m))
      | some .failFast => some (.done s .failFast)
      | some .ub => some (.done s .ub)

end Makeshift.ZipMembers
