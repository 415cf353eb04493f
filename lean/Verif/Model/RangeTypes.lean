import Verif.Model.TupleAccess
import Verif.Model.Ranges

/-!
# `range` as a type: construction, size and the tuple protocol

Model of ranges.hpp:27-80 and 124-129, detail/ranges.hpp:95-141 and 156-174, and of detail/zip.hpp:93-97 and 540-563 and
constval.hpp:427-456 as far as ranges are concerned: which expressions compile and what types they have.  Elements are dealt with in
Model/Ranges.lean.  `none`: ill-formed.
-/

namespace Makeshift.RangeTypes

open Makeshift.TupleAccess

/-- An iterator or sentinel type: its identity, whether it is a random access iterator (of any kind, [iterator.traits]), the type of
`*it`, whether `T{ }` is a constant expression, and whether it converts to `std::size_t`. -/
structure ItTy where
  id : Nat
  randomAccess : Bool
  deref : Ty
  constexprDefault : Bool
  toSize : Bool
  deriving DecidableEq, Repr

/-- The type of the second argument of `range` or `make_range`. -/
inductive Second where
  | iter (t : ItTy)
  /-- an integer type -/
  | int
  /-- `std::integral_constant<T, v>` -/
  | const (v : Int)
  deriving DecidableEq, Repr

/-- `range<It, EndIt, Extent>` (ranges.hpp:30-31). -/
structure RangeTy where
  it : ItTy
  endIt : ItTy
  extent : Int
  deriving DecidableEq, Repr

/-- `std::is_convertible<T, std::size_t>` for the second argument. -/
def Second.toSize : Second → Bool
  | .iter t => t.toSize
  | .int => true
  | .const _ => true

/-- detail/ranges.hpp:135-144 `range_extent_from_constval(ExtentC{ })` as a constant expression. -/
def Second.extent : Second → Option Int
  | .iter t => if t.constexprDefault then some (-1) else none
  | .int => some (-1)
  | .const v => some (IntTy.ptrdiffT.wrap v)

/-- What `range<>` derives from. -/
inductive Base where
  | general
  | random
  | static (n : Nat)
  deriving DecidableEq, Repr

/-- detail/ranges.hpp:95-128: the specialisation of `range_base` and its base class.  The primary template is not defined; a
negative static extent fails a `static_assert` (line 71). -/
def rangeBase (r : RangeTy) : Option Base :=
  if r.extent = -1 then some (if r.it.randomAccess then .random else .general)
  else if r.it = r.endIt ∧ r.it.randomAccess = true then
    if 0 ≤ r.extent then some (.static r.extent.toNat) else none
  else none

/-- ranges.hpp:51-54: the type deduced for `range(first, second)`.  The guides exclude each other.  The guides generated from the
constructors (lines 37-49) have the same parameters; they lose against a guide of the class, and otherwise none of them is better. -/
def deduce (it : ItTy) (second : Second) : Option RangeTy :=
  let pair := match second with
    | .iter t => if !second.toSize then some (RangeTy.mk it t (-1)) else none
    | _ => none
  let extent := if second.toSize then second.extent.map fun e => RangeTy.mk it it e else none
  match pair, extent with
  | some r, none => some r
  | none, some r => some r
  | _, _ => none

/-- ranges.hpp:37-49: whether `range<It, EndIt, Extent>` can be constructed from an iterator and the second argument: a sentinel (first
constructor, which is preferred because it is not a template), or something that converts to `std::size_t` and can be added to the
iterator (the model takes this to be so for every such type and every random access iterator); then `ExtentC{ }` has to be a constant
expression (line 46).  The class has to be complete. -/
def constructible (r : RangeTy) (second : Second) : Bool :=
  (rangeBase r).isSome && match second with
    | .iter t => decide (t = r.endIt) || (t.toSize && t.constexprDefault && r.it.randomAccess)
    | .int => r.it.randomAccess
    | .const v => r.it.randomAccess && (decide (r.extent = -1) || decide (IntTy.ptrdiffT.wrap v = -1) || decide (r.extent = IntTy.ptrdiffT.wrap v))

/-- The expression `range(first, second)`. -/
def rangeExpr (it : ItTy) (second : Second) : Option RangeTy :=
  (deduce it second).bind fun r => if constructible r second then some r else none

/-- ranges.hpp:59-66: the return type of the first overload of `make_range`, if viable. -/
def makeRangePair (it : ItTy) (second : Second) : Option RangeTy :=
  match second with
  | .iter t => if !second.toSize then some ⟨it, t, -1⟩ else none
  | _ => none

/-- ranges.hpp:71-76: the return type of the second overload of `make_range`, if viable.  The condition is negated as in the first
overload. -/
def makeRangeExtent (it : ItTy) (second : Second) : Option RangeTy :=
  if !second.toSize then second.extent.map fun e => ⟨it, it, e⟩ else none

/-- ranges.hpp:56-76 `make_range(first, second)`: the type of the call.  Both overloads take any two arguments by value, so neither
is better if both are viable. -/
def makeRange (it : ItTy) (second : Second) : Option RangeTy :=
  (match makeRangePair it second, makeRangeExtent it second with
    | some r, none => some r
    | none, some r => some r
    | _, _ => none).bind fun r => if constructible r second then some r else none

/-- What happens to `std::tuple_size<R>::value`. -/
inductive TupleSize where
  | value (n : Nat)
  /-- `std::tuple_size<R>` is not defined, which the detection idiom notices -/
  | incomplete
  /-- more than one partial specialisation matches and none is the most specialised ([temp.class.spec.match]): the program is
  ill-formed, also if this happens in a test for tuple-likeness -/
  | ambiguous
  deriving DecidableEq, Repr

/-- ranges.hpp:126-127: the partial specialisations `range<It, It, Extent>` and `range<It, EndIt, -1>`. -/
def tupleSize (r : RangeTy) : TupleSize :=
  if r.it = r.endIt then
    if r.extent = -1 then .ambiguous else .value r.extent.toNat
  else .incomplete

/-- `std::tuple_size<R>::value`, which does not compile without a value. -/
def TupleSize.value? : TupleSize → Option Nat
  | .value n => some n
  | _ => none

/-- detail/type_traits.hpp:202-203 `is_tuple_like`. -/
def isTupleLike (r : RangeTy) : Option Bool :=
  match tupleSize r with
  | .value _ => some true
  | .incomplete => some false
  | .ambiguous => none

/-- A size: known at compile time, known at run time, or unknown. -/
inductive Size where
  | static (n : Nat)
  | dynamic
  | unknown
  deriving DecidableEq, Repr

/-- `range.size()` (detail/ranges.hpp:56-59, 84-87); `subtractable`: there is an operator `-` for the sentinel and the iterator.  The
declaration of `size()` does not depend on that, its body does. -/
def sizeMember (subtractable : Bool) (r : RangeTy) : Option (Option Size) :=
  match rangeBase r with
  | none => none
  | some .general => some none
  | some .random => if subtractable then some (some .dynamic) else none
  | some (.static _) => some (some .dynamic)

/-- detail/zip.hpp:540-563 `range_size`, which all `range_*` algorithms use, for a range. -/
def rangeSize (subtractable : Bool) (r : RangeTy) : Option Size :=
  (rangeBase r).bind fun _ => (isTupleLike r).bind fun
    | true => (tupleSize r).value?.map .static
    | false => (sizeMember subtractable r).map fun s => s.getD .unknown

/-- constval.hpp:427-433 with detail/constval.hpp:336-348 `csize` for a range; ill-formed if there is no `size()`. -/
def csize (subtractable : Bool) (r : RangeTy) : Option Size :=
  (rangeBase r).bind fun _ => (isTupleLike r).bind fun
    | true => (tupleSize r).value?.map .static
    | false => (sizeMember subtractable r).bind id

/-- ranges.hpp:128-129 `std::tuple_element<I, range<It, It, Extent>>`; [tuple.helper] adds the const of the range type. -/
def tupleElement (const : Bool) (deref : Ty) : Ty := .obj ⟨deref.referred.ty, const⟩

/-- detail/ranges.hpp:162-174 `get<I>(range)`: the type of the call expression.  The overload for non-const lvalues returns the type of
`*it`; the other one applies `as_const` (157-161), whose parameter is an lvalue reference to a deduced type, so it is viable only if
`*it` is an lvalue or const. -/
def get (a : Access) (deref : Ty) : Option Ty :=
  if !a.const && !a.rvalue then some deref
  else match deref with
    | .lref c => some (.lref { c with const := true })
    | .rref c => if c.const then some (.lref c) else none
    | .obj c => if c.const then some (.lref c) else none

/-- detail/ranges.hpp:162-174 `get<I>(range)`: the value, for an iterator into an array. -/
def getValue {α : Type} (array : List α) (r : StaticRange) (i : Nat) : Option (Outcome α) :=
  if i < r.extent then some (r.get array i) else none

end Makeshift.RangeTypes
