import Verif.Model.Zip
import Verif.Model.IndexIterator

/-!
# Zip iterators and the standard library

Model of the iterator category of the iterators of `range_zip` (detail/algorithm.hpp lines 112-124), of the subscript operator of the range
(286, 401-429), and of the functions of namespace `std` which depend on the category: `advance`, `next`, `prev`, `distance`
([iterator.operations], C++17) and `reverse_iterator`; and the list of functions a zip iterator has, with their constness.

The zipped ranges are given as in `Model/Zip.lean`, their iterator categories by a separate list.  `none` means ill-formed.
-/

namespace Makeshift.ZipStd

variable {α : Type}

/-- The overload which tag dispatch selects for an object of a class with the given direct bases ([iterator.tags]): the strongest of the
categories `random_access_iterator_tag`, `bidirectional_iterator_tag`, `input_iterator_tag` which it is derived from. -/
def dispatch (bases : List Category) : Option Category :=
  if .randomAccess ∈ bases then some .randomAccess
  else if .bidirectional ∈ bases then some .bidirectional
  else if .forward ∈ bases ∨ .input ∈ bases then some .input
  else none

/-- detail/algorithm.hpp:119 `iterator_category`, as seen by tag dispatch. -/
def category (cats : List Category) : Option Category := (commonIteratorTag cats).bind dispatch

/-- detail/algorithm.hpp:286 `ranges_are_random_access_`, 401-429 `zip_range_subscript_base`: whether the zipped range has a subscript operator. -/
def hasSubscript (cats : List Category) : Bool := category cats = some .randomAccess

/-- `n` increments. -/
def incTimes (rs : List (Rng α)) : Nat → ZipIt → Outcome ZipIt
  | 0, it => .ok it
  | n + 1, it => (zipInc rs it).bind (incTimes rs n)

/-- `n` decrements. -/
def decTimes (rs : List (Rng α)) : Nat → ZipIt → Outcome ZipIt
  | 0, it => .ok it
  | n + 1, it => (zipDec rs it).bind (decTimes rs n)

/-- `std::advance(it, n)` ([iterator.operations]/2-3): random access iterators use `+=`, others are incremented or decremented; a negative
`n` is undefined for iterators which are not bidirectional. -/
def stdAdvance (cats : List Category) (rs : List (Rng α)) (it : ZipIt) (n : Int) : Option (Outcome ZipIt) :=
  (category cats).map fun
    | .randomAccess => zipAdvance rs it n
    | .bidirectional => if 0 ≤ n then incTimes rs n.toNat it else decTimes rs (-n).toNat it
    | _ => if 0 ≤ n then incTimes rs n.toNat it else .ub

/-- `std::next(it, n)`. -/
def stdNext (cats : List Category) (rs : List (Rng α)) (it : ZipIt) (n : Int) : Option (Outcome ZipIt) := stdAdvance cats rs it n

/-- `std::prev(it, n)`. -/
def stdPrev (cats : List Category) (rs : List (Rng α)) (it : ZipIt) (n : Int) : Option (Outcome ZipIt) := stdAdvance cats rs it (-n)

/-- The loop of `std::distance(first, last)` for iterators which are not random access, with at most `fuel` tests of the condition; `none`
if not finished. -/
def distanceLoop (rs : List (Rng α)) (last : ZipIt) : Nat → ZipIt → Int → Option (Outcome Int)
  | 0, _, _ => none
  | fuel + 1, it, n =>
    if zipNe it last then
      match zipInc rs it with
      | .ok it' => distanceLoop rs last fuel it' (n + 1)
      | .throw m => some (.throw m)
      | .failFast => some .failFast
      | .ub => some .ub
    else some (.ok n)

/-- `std::distance(first, last)` ([iterator.operations]/4-6). -/
def stdDistance (cats : List Category) (rs : List (Rng α)) (fuel : Nat) (first last : ZipIt) : Option (Option (Outcome Int)) :=
  (category cats).map fun
    | .randomAccess => some (.ok (zipDiff last first))
    | _ => distanceLoop rs last fuel first 0

/-- `*std::reverse_iterator(it)` ([reverse.iter.elem]): `It tmp = it; return *--tmp;`. -/
def reverseDeref (rs : List (Rng α)) (it : ZipIt) : Outcome (List (Arg α)) := (zipDec rs it).bind fun tmp => zipDeref rs tmp

/-- `for (auto rit = make_reverse_iterator(zip.end()); rit != make_reverse_iterator(zip.begin()); ++rit)`: the tuples seen and how the loop ends,
with at most `fuel` tests of the condition. -/
def reverseLoop (rs : List (Rng α)) (stop : ZipIt) : Nat → ZipIt → List (List (Arg α)) → Result (List (List (Arg α)))
  | 0, _, _ => .unfinished
  | fuel + 1, it, s =>
    if zipNe it stop then
      match reverseDeref rs it with
      | .ok args =>
        match zipDec rs it with
        | .ok it' => reverseLoop rs stop fuel it' (s ++ [args])
        | .throw m => .done (s ++ [args]) (.throw m)
        | .failFast => .done (s ++ [args]) .failFast
        | .ub => .done (s ++ [args]) .ub
      | .throw m => .done s (.throw m)
      | .failFast => .done s .failFast
      | .ub => .done s .ub
    else .done s (.ok ())

/-- Traversing `range_zip(rs...)` by reverse iterators. -/
def reverseIterate (rs : List (Rng α)) (fuel : Nat) : Result (List (List (Arg α))) :=
  match mergeSizes (rs.map Rng.size) with
  | .staticMismatch => .illFormed
  | .failFast => .done [] .failFast
  | .ok size =>
    if size = .static unknownSize then .illFormed                    -- static_assert, algorithm.hpp:72
    else reverseLoop rs (zipBegin rs) fuel (zipEnd size rs) []

/-- detail/algorithm.hpp:94-270: the functions of a zip iterator, and whether each can be called for a `const` iterator: `operator *` (146-149)
and `operator []` (206-209) cannot.  There is no default constructor: `zip_iterator_base` declares constructors (129-136). -/
def declared : List (IndexIt.Function × Bool) :=
  [(.copyCtor, true), (.copyAssign, false), (.deref, false), (.preInc, false), (.postInc, false), (.eq, true), (.ne, true),
    (.preDec, false), (.postDec, false), (.subscript, false), (.addAssign, false), (.subAssign, false), (.plus, true), (.plusLeft, true),
    (.minus, true), (.difference, true), (.lt, true), (.le, true), (.gt, true), (.ge, true)]

end Makeshift.ZipStd
