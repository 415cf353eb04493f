import Verif.Model.Zip

/-!
# Which types can be passed to the range algorithms

Model of detail/zip.hpp:93-97, 205-243, 303-454 (types), 540-568 and detail/algorithm.hpp:76-126, 271-285, 374-468 (types): how the type
and the value category of a range argument determine whether the algorithms compile, how the range is iterated, and which size is assumed.

A type is described by the operations it supports.  `gsl::data` and `gsl::size` are `std::data` and `std::size` ([iterator.range]): they
call the member functions, and are also overloaded for C arrays and, `data` only, for `std::initializer_list`.
-/

namespace Makeshift.RangeArgs

/-- A class type, with the operations which can be performed on lvalues and on const lvalues of the type.  What is said about the
iterators holds for those of const and of other objects alike. -/
structure Class where
  begin_ : Bool                 -- `begin(x)`, `end(x)`
  constBegin : Bool
  data : Bool                   -- `x.data()`
  constData : Bool
  freeData : Bool               -- `std::data(x)` for const `x` without a member function: `std::initializer_list`
  constSize : Bool              -- `std::size(x)` for const `x`
  tupleSize : Option Nat        -- `is_tuple_like`, `std::tuple_size`
  /-- `std::iterator_traits<decltype(begin(x))>` has the usual members: `begin` returns an iterator, not a reference to one, and the
  iterator has a category (not all iterators of C++20 do) -/
  traits : Bool
  /-- `*it` can be evaluated for a const iterator -/
  constDeref : Bool
  /-- iterators can be constructed from what `end` returns, and the other way round (in general: both have the same type) -/
  commonEnd : Bool
  deriving DecidableEq, Repr

/-- The type of a range argument, without reference and cv-qualifiers: `range_index_t`, a C array, or a class. -/
inductive Ty where
  | rangeIndex
  | cArray (n : Nat)
  | class (c : Class)
  deriving DecidableEq, Repr

/-- An argument: its type, and how it is passed. -/
structure Argument where
  ty : Ty
  const : Bool
  rvalue : Bool
  deriving DecidableEq, Repr

/-- detail/zip.hpp:93-94 `has_data<std::decay_t<R>>`: a C array decays to a pointer, which has no `data`; the type is not a reference,
so the argument of `gsl::data` is an rvalue, which binds to a reference to const only. -/
def hasData : Ty → Bool
  | .rangeIndex => false
  | .cArray _ => false
  | .class c => c.constData || c.freeData

/-- detail/zip.hpp:96-97 `has_size<std::decay_t<R>>`. -/
def hasSize : Ty → Bool
  | .rangeIndex => false
  | .cArray _ => false
  | .class c => c.constSize

/-- detail/zip.hpp:234-240 `range_iterator_leaf_mode_<std::decay_t<R>>`; `none`: there is no specialisation for types with data but
without size. -/
def leafMode (t : Ty) : Option LeafMode :=
  if t = .rangeIndex then some .rangeIndex
  else match hasData t, hasSize t with
    | false, false => some .iteratorPair
    | false, true => some .iterator
    | true, true => some .index
    | true, false => none

/-- `begin(x)` and `end(x)` for an lvalue of the given constness: detail/zip.hpp:205-216 `range_begin`, `range_end`. -/
def canBegin (const : Bool) : Ty → Bool
  | .rangeIndex => false
  | .cArray _ => true
  | .class c => if const then c.constBegin else c.begin_

/-- `x.data()` for an lvalue of the given constness. -/
def canData (const : Bool) : Ty → Bool
  | .class c => if const then c.constData else c.data
  | _ => false

/-- detail/zip.hpp:218-219 `range_iterator_category_<std::decay_t<R>>`, needed by detail/algorithm.hpp:119: a C array has decayed to a
pointer, for which there is no `begin`.  `range_begin` returns what `begin` returns, possibly a reference (line 206). -/
def hasCategory : Ty → Bool
  | .rangeIndex => true
  | .cArray _ => false
  | .class c => c.begin_ && c.traits

/-- detail/zip.hpp:308-311, 356-358: the types `iterator`, `value_type` and `reference`; 336-339, 378-381: `_deref` is a const member
function, so the iterator is const where it is dereferenced. -/
def iteratorUsable : Ty → Bool
  | .class c => c.traits && c.constDeref
  | _ => true

/-- detail/zip.hpp:303-426: whether `zip_iterator_leaf_base<I, R, mode>` can be instantiated, constructed for an lvalue `R`, and
dereferenced. -/
def leafCompiles (const : Bool) (t : Ty) : Bool :=
  match leafMode t with
  | none => false
  | some .iteratorPair => canBegin const t && iteratorUsable t   -- 308-323
  | some .iterator => canBegin const t && iteratorUsable t       -- 356-365
  | some .index => canData const t                       -- 390-399
  | some .rangeIndex => true

/-- detail/zip.hpp:540-568 `range_size`; a C array is neither tuple-like nor decayed here (`gsl::size` of the array).  The argument is the
number of elements. -/
def sizeOfRange (n : Nat) : Ty → Size
  | .rangeIndex => .static unknownSize
  | .cArray _ => .dyn n
  | .class c =>
    match c.tupleSize with
    | some k => .static k                                -- 550-554
    | none => if c.constSize then .dyn n else .static unknownSize

/-- algorithm.hpp:90-103 and its siblings: whether the zip iterator over the arguments compiles; the arguments are named, so they are
lvalues (detail/algorithm.hpp:271-275, `Rs&... ranges`). -/
def algorithmCompiles (args : List Argument) : Bool :=
  args.all fun a => leafCompiles a.const a.ty && hasCategory a.ty

/-- detail/algorithm.hpp:378-399 `zip_range_base`: whether `iterator(std::get<Is>(ranges_)...)` compiles in `begin() const`.  The tuple
holds a reference for an lvalue argument and an object of the argument's type for an rvalue; the element of the const tuple is a const
lvalue in the latter case, and the iterator expects an lvalue of the argument's type. -/
def bindsToIterator (a : Argument) : Bool :=
  let elemConst := if a.rvalue then true else a.const
  elemConst == a.const

/-- detail/zip.hpp:320-323: the constructor of an end iterator over a range without size initialises an iterator with `end(range)`, and
a sentinel with an iterator; the other leaves (362-365, 396-399, 414-416) do not call `end`. -/
def endCompiles (t : Ty) : Bool :=
  match leafMode t, t with
  | some .iteratorPair, .class c => c.commonEnd
  | _, _ => true

/-- algorithm.hpp:64-75 `range_zip`: whether iterating over the result compiles (for sizes see `rangeZipIterate`). -/
def zipCompiles (args : List Argument) : Bool :=
  algorithmCompiles args && args.all bindsToIterator && args.all fun a => endCompiles a.ty

/-- experimental/algorithm.hpp:99-108 `range_zip_sentinel`: the end of the result is a sentinel, so no end iterator is constructed. -/
def zipSentinelCompiles (args : List Argument) : Bool := algorithmCompiles args && args.all bindsToIterator

/-- The range which the algorithms see. -/
def toRng {α : Type} (a : Argument) (elems : List α) : Option (Rng α) :=
  (leafMode a.ty).map fun m => ⟨m, sizeOfRange elems.length a.ty, elems⟩

end Makeshift.RangeArgs
