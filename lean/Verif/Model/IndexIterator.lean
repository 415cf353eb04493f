import Verif.Model.Ranges
import Verif.Model.IteratorTag

/-!
# `index_iterator` as a standard iterator

Model of all operations of `index_iterator` (iterator.hpp lines 22-200), of its iterator category and concept, and of the functions of
namespace `std` which depend on them: `advance`, `next`, `prev`, `distance` ([iterator.operations], C++17) and `reverse_iterator`.

Not modelled: `operator ->` (88-105), which gives access to the members of an integer, of which there are none.
-/

namespace Makeshift.IndexIt

/-- The operations which move an iterator. -/
inductive Move where
  | preInc | postInc | preDec | postDec | addAssign (n : Int) | subAssign (n : Int)
  /-- `it = it + n` -/
  | plus (n : Int)
  /-- `it = n + it` -/
  | plusLeft (n : Int)
  /-- `it = it - n` -/
  | minus (n : Int)
  deriving DecidableEq, Repr

/-- The iterator after the operation, and the value of the expression. -/
def Move.step : Move → IndexIt → Outcome (IndexIt × IndexIt)
  | .preInc, it => it.inc.bind fun it' => .ok (it', it')                         -- iterator.hpp:43-48
  | .postInc, it => it.inc.bind fun it' => .ok (it', it)                         -- 76-82
  | .preDec, it => it.dec.bind fun it' => .ok (it', it')                         -- 118-123
  | .postDec, it => it.dec.bind fun it' => .ok (it', it)                         -- 125-131
  | .addAssign n, it => (it.add n).bind fun it' => .ok (it', it')                -- 137-142
  | .subAssign n, it => (it.sub n).bind fun it' => .ok (it', it')                -- 143-148
  | .plus n, it => (it.add n).bind fun it' => .ok (it', it')                     -- 150-155
  | .plusLeft n, it => (it.add n).bind fun it' => .ok (it', it')                 -- 156-161
  | .minus n, it => (it.sub n).bind fun it' => .ok (it', it')                    -- 162-167

/-- A sequence of operations on an iterator (client code), with the values of the expressions. -/
def moves : List Move → IndexIt → Outcome (IndexIt × List IndexIt)
  | [], it => .ok (it, [])
  | op :: ops, it => (op.step it).bind fun r => (moves ops r.1).bind fun rs => .ok (rs.1, r.2 :: rs.2)

/-- iterator.hpp:28-31: the default constructor. -/
def default : IndexIt := ⟨-1⟩

/-- iterator.hpp:71 `iterator_category`. -/
def category : Category := .input

/-- iterator.hpp:74 `iterator_concept`. -/
def concept : Category := .randomAccess

/-- `n` increments. -/
def incTimes : Nat → IndexIt → Outcome IndexIt
  | 0, it => .ok it
  | n + 1, it => it.inc.bind (incTimes n)

/-- `n` decrements. -/
def decTimes : Nat → IndexIt → Outcome IndexIt
  | 0, it => .ok it
  | n + 1, it => it.dec.bind (decTimes n)

/-- `std::advance(it, n)` ([iterator.operations]/2-3): random access iterators use `+=`, others are incremented or decremented; a negative
`n` is undefined for iterators which are not bidirectional. -/
def stdAdvance (cat : Category) (it : IndexIt) (n : Int) : Outcome IndexIt :=
  if cat = .randomAccess then it.add n
  else if 0 ≤ n then incTimes n.toNat it
  else if cat = .bidirectional then decTimes (-n).toNat it
  else .ub

/-- `std::next(it, n)`. -/
def stdNext (it : IndexIt) (n : Int) : Outcome IndexIt := stdAdvance category it n

/-- `std::prev(it, n)`: `std::advance(it, -n)`; the negation must be representable. -/
def stdPrev (it : IndexIt) (n : Int) : Outcome IndexIt := (IntTy.ptrdiffT.arith (-n)).bind fun m => stdAdvance category it m

theorem inc_some {it it' : IndexIt} (h : it.inc = .ok it') : it'.i = it.i + 1 ∧ it.i + 1 ≤ 2 ^ 63 - 1 := by
  by_cases hr : IntTy.ptrdiffT.InRange (it.i + 1)
  · have h2 := hr.2
    simp [IndexIt.inc, IntTy.arith, IntTy.ptrdiffT, show IntTy.InRange ⟨64, true⟩ (it.i + 1) from hr] at h
    simp [IntTy.maxVal, IntTy.ptrdiffT] at h2
    subst h
    exact ⟨rfl, by omega⟩
  · simp [IndexIt.inc, IntTy.arith, IntTy.ptrdiffT, show ¬ IntTy.InRange ⟨64, true⟩ (it.i + 1) from hr] at h

/-- The loop of `std::distance(first, last)` for iterators which are not random access: the number of increments until `last` is reached, counted
in `difference_type`. -/
def distanceLoop (first last : IndexIt) (n : Int) : Outcome Int :=
  if first.ne last then
    match h : first.inc with
    | .ok first' => (IntTy.ptrdiffT.arith (n + 1)).bind fun n' => distanceLoop first' last n'
    | .throw m => .throw m
    | .failFast => .failFast
    | .ub => .ub
  else .ok n
  termination_by (2 ^ 63 - first.i).toNat
  decreasing_by
    have := inc_some h
    omega

/-- `std::distance(first, last)` ([iterator.operations]/4-6). -/
def stdDistance (cat : Category) (first last : IndexIt) : Outcome Int :=
  if cat = .randomAccess then last.diff first else distanceLoop first last 0

/-- `*std::reverse_iterator(it)` ([reverse.iter.elem]): the element before `it`.  (Since C++20, `reverse_iterator` accepts iterators which satisfy the
concept `std::bidirectional_iterator`.) -/
def reverseDeref (it : IndexIt) : Outcome Int := it.dec.bind fun tmp => .ok tmp.deref

/-- `for (auto rit = make_reverse_iterator(last); rit != make_reverse_iterator(first); ++rit)`: the values seen, with at most `fuel` tests of the
condition; `none` if not finished. -/
def reverseLoop (first : IndexIt) : Nat → IndexIt → Option (Outcome (List Int))
  | 0, _ => none
  | fuel + 1, it =>
    if it.ne first then
      match reverseDeref it, it.dec with
      | .ok v, .ok it' => (reverseLoop first fuel it').map fun r => r.bind fun rest => .ok (v :: rest)
      | _, _ => some .ub
    else some (.ok [])

/-- The functions which the iterator concepts require. -/
inductive Function where
  | defaultCtor | copyCtor | copyAssign | deref | subscript | preInc | postInc | preDec | postDec | addAssign | subAssign
  | plus | plusLeft | minus | difference | eq | ne | lt | gt | le | ge
  deriving DecidableEq, Repr

/-- iterator.hpp:22-200: the functions declared, and whether each can be called for a `const` iterator. -/
def declared : List (Function × Bool) :=
  [(.defaultCtor, false), (.copyCtor, true), (.copyAssign, false), (.deref, true), (.preInc, false), (.eq, true), (.ne, true), (.postInc, false),
    (.preDec, false), (.postDec, false), (.addAssign, false), (.subAssign, false), (.plus, true), (.plusLeft, true), (.minus, true),
    (.difference, true), (.lt, true), (.le, true), (.gt, true), (.ge, true), (.subscript, true)]

end Makeshift.IndexIt
