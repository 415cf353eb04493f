import Verif.Model.MachineInt
import Verif.Model.RangeObjects

/-!
# Exceptions and `noexcept`

Model of functions which are declared `noexcept` and call functions of the user - copy constructors, assignments and `swap` of elements,
`get` of tuples, `size()` of ranges, operators of iterators -, and of the functions built upon them:
experimental/detail/span.hpp:53-84, 94-107, detail/ranges.hpp:56-64, 83-92, detail/zip.hpp:540-564, detail/tuple-transform.hpp:62-92,
experimental/tuple.hpp:67-73 and experimental/detail/tuple.hpp:31-57.  (`single` and `single_or_default` are `noexcept`, too, but never get
an element, see Model/ExpTuple.lean.)

A call of a function of the user is an action on the state `M` of the program, which may return, throw, terminate the program, or have
undefined behaviour.  If an exception leaves a function which is declared `noexcept`, `std::terminate` is called ([except.spec]).
-/

namespace Makeshift.Noexcept

variable {M A B : Type}

/-- A call with effects. -/
abbrev Act (M B : Type) := M → Outcome B × M

/-- One call after another; anything but a regular return ends the evaluation. -/
def andThen (a : Act M A) (f : A → Act M B) : Act M B := fun m =>
  match a m with
  | (.ok x, m') => f x m'
  | (.throw e, m') => (.throw e, m')
  | (.failFast, m') => (.failFast, m')
  | (.ub, m') => (.ub, m')

/-- The body of a function declared `noexcept`. -/
def noexceptFn (a : Act M B) : Act M B := fun m =>
  match a m with
  | (.throw _, m') => (.failFast, m')
  | r => r

/-- Expressions evaluated in order: elements of a braced list ([dcl.init.list]) or steps of `template_for`
(detail/tuple-transform.hpp:83-92).  Where the order of arguments is not specified, the order in which the compiler evaluates them. -/
def inOrder : List (Act M B) → Act M (List B)
  | [] => fun m => (.ok [], m)
  | a :: as => andThen a fun b => andThen (inOrder as) fun bs m => (.ok (b :: bs), m)

/-- A function call whose result is discarded. -/
def discard (a : Act M B) : Act M Unit := andThen a fun _ m => (.ok (), m)

/-- experimental/detail/span.hpp:53-63 and 64-74 `soa_reference::operator =`: the assignments to the elements. -/
def soaAssign (assigns : List (Act M Unit)) : Act M Unit := noexceptFn (discard (inOrder assigns))

/-- experimental/detail/span.hpp:75-84: conversion of a `soa_reference` to a tuple; the elements are copied, in some order
(detail/tuple.hpp:141-144). -/
def soaToTuple (copies : List (Act M B)) : Act M (List B) := noexceptFn (inOrder copies)

/-- experimental/detail/span.hpp:94-107 `swap` of two `soa_reference`s. -/
def soaSwap (swaps : List (Act M Unit)) : Act M Unit := noexceptFn (discard (inOrder swaps))

/-- detail/ranges.hpp:56-59 `random_access_range_base::size`: `last_ - first_`, converted to `std::size_t`. -/
def rangeSize (difference : Act M Int) : Act M Int := noexceptFn (andThen difference fun d m => (.ok (IntTy.sizeT.wrap d), m))

/-- detail/ranges.hpp:60-64 `random_access_range_base::operator []`. -/
def rangeSubscript (difference : Act M Int) (subscript : Int → Act M B) (i : Int) : Act M B :=
  noexceptFn (andThen difference fun d => andThen (fun m => (Outcome.expects (decide (i < IntTy.sizeT.wrap d)), m)) fun _ => subscript i)

/-- detail/ranges.hpp:83 `static_random_access_range_base::end`. -/
def staticRangeEnd (plus : Int → Act M B) (extent : Int) : Act M B := noexceptFn (plus extent)

/-- detail/ranges.hpp:88-92 `static_random_access_range_base::operator []`. -/
def staticRangeSubscript (extent : Int) (subscript : Int → Act M B) (i : Int) : Act M B :=
  noexceptFn (andThen (fun m => (Outcome.expects (decide (i < extent)), m)) fun _ => subscript i)

/-- detail/zip.hpp:540-564 `range_size`: for tuple-like ranges, ranges without size and `range_index` a constant, otherwise the result of
a call. -/
inductive SizeExpr (M : Type) where
  | constant (s : Size)
  | call (size : Act M Int)

/-- detail/zip.hpp:540-544 `range_size_1` is `noexcept`. -/
def rangeSizeOf : SizeExpr M → Act M Size
  | .constant s => fun m => (.ok s, m)
  | .call size => noexceptFn (andThen size fun n m => (.ok (.dyn n), m))

/-- algorithm.hpp:94-98 and the corresponding lines of the other algorithms: the sizes are determined first (their order is not
specified; here it is that of the arguments), then the loop is run with ranges of these sizes. -/
def withSizes (sizes : List (SizeExpr M)) (loop : List Size → Act M B) : Act M B := andThen (inOrder (sizes.map rangeSizeOf)) loop

/-- A range algorithm of Model/RangeObjects.lean which has ended; otherwise it is not considered. -/
def ended : RangeObjects.Res M B → M → Outcome B × M
  | .done m o, _ => (o, m)
  | _, m => (.ub, m)

/-- algorithm.hpp:90-103 `range_for`, where `rs` yields the ranges, given their sizes. -/
def rangeForCalls (func : RangeObjects.Fn M Unit) (sizes : List (SizeExpr M)) (rs : List Size → List (Rng Nat)) (fuel : Nat) : Act M Unit :=
  withSizes sizes fun ns m => ended (RangeObjects.rangeFor func (rs ns) fuel m) m

/-- detail/tuple-transform.hpp:62-67 `get_element` is `noexcept`. -/
def getElement (get : Act M A) : Act M A := noexceptFn get

/-- detail/tuple-transform.hpp:70-75 `transform_element<I>`: the arguments are got (their order is not specified; here it is that of the
arguments), then the functor is called. -/
def transformElement (func : List A → Act M B) (gets : List (Act M A)) : Act M B := andThen (inOrder (gets.map getElement)) func

/-- detail/tuple-transform.hpp:83-92 `template_for`, detail/tuple.hpp:138-144 `tuple_transform` (in some order): one list of `get`s for each
index. -/
def templateFor (func : List A → Act M B) (gets : List (List (Act M A))) : Act M (List B) := inOrder (gets.map (transformElement func))

/-- experimental/detail/tuple.hpp:31-43 `get_or_replace`. -/
def getOrReplace (get : Act M A) : Act M A := noexceptFn get

/-- experimental/tuple.hpp:67-73 and experimental/detail/tuple.hpp:49-57 `with<I>`: for every element, a `get` or the new element, and the
construction of an element of the result. -/
def withElement (elems : List (Act M A × (A → Act M B))) : Act M (List B) :=
  inOrder (elems.map fun e => andThen (getOrReplace e.1) e.2)

end Makeshift.Noexcept
