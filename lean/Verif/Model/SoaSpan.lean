import Verif.Outcome

/-!
# `soa_span`

Model of `experimental/span.hpp` and `experimental/detail/span.hpp`.

Memory consists of numbered arrays; a pointer is an array with a position.  The elements of all columns have one type `α` here (no
operation looks at them).  Sizes are less than `2^63`, so that the conversions to `std::ptrdiff_t` are exact.

`soa_span` objects are numbered too, because `soa_reference` and `soa_span_iterator` refer to the tuple of pointers inside the span
object (experimental/detail/span.hpp:43, 117): they can be used only as long as that object exists.
-/

namespace Makeshift.Soa

/-- A pointer into an array. -/
structure Ptr where
  arr : Nat
  off : Nat
  deriving DecidableEq, Repr

/-- experimental/span.hpp:34-39: the data members of `soa_span`.  (`data_` holds pointers to non-const whatever the column types are.) -/
structure Span where
  data : List Ptr
  size : Nat
  deriving DecidableEq, Repr

/-- The program state: arrays, which of them are defined `const`, and `soa_span` objects. -/
structure State (α : Type) where
  cells : Nat → List α
  isConst : Nat → Bool
  spans : Nat → Option Span

/-- experimental/detail/span.hpp:36-49 `soa_reference` and 110-123 `soa_span_iterator`: the span object referred to, and an index. -/
structure Ref where
  obj : Nat
  index : Int
  deriving DecidableEq, Repr

/-- `std::size_t(-1)`. -/
def npos : Nat := 2 ^ 64 - 1

/-- experimental/detail/span.hpp:230-246 `check_all_equal`. -/
def checkAllEqual : List Nat → Outcome Nat
  | [] => .ok 0
  | [v] => .ok v
  | v :: v' :: vs => (checkAllEqual (v' :: vs)).bind fun result => (Outcome.expects (decide (v = result))).bind fun _ => .ok result

/-- experimental/span.hpp:56-61: the constructor, from pointers and sizes of the `gsl::span<>` arguments. -/
def makeSpan (cols : List (Ptr × Nat)) : Outcome Span :=
  (checkAllEqual (cols.map (·.2))).bind fun n => .ok ⟨cols.map (·.1), n⟩

/-- experimental/span.hpp:63-67. -/
def Span.size' (s : Span) : Nat := s.size

/-- experimental/span.hpp:68-72. -/
def Span.empty (s : Span) : Bool := decide (s.size ≠ 0)

/-- experimental/span.hpp:117-135. -/
def Span.subspan (s : Span) (offset count : Nat) : Outcome Span :=
  (Outcome.expects (decide (offset ≤ s.size) && (decide (count = npos) || decide (count ≤ s.size - offset)))).bind fun _ =>
  let newSize := if count ≠ npos then count else s.size - offset
  .ok ⟨s.data.map fun p => { p with off := p.off + offset }, newSize⟩

/-- experimental/span.hpp:136-140. -/
def Span.first (s : Span) (count : Nat) : Outcome Span := s.subspan 0 count

/-- experimental/span.hpp:141-147. -/
def Span.last (s : Span) (count : Nat) : Outcome Span :=
  (Outcome.expects (decide (count ≤ s.size))).bind fun _ => s.subspan (s.size - count) count

/-- A span object is used. -/
def State.withSpan {α β : Type} (st : State α) (b : Nat) (f : Span → Outcome β) : Outcome β :=
  match st.spans b with
  | some s => f s
  | none => .ub

/-- experimental/span.hpp:95-101 `operator []`. -/
def at' {α : Type} (st : State α) (b : Nat) (i : Nat) : Outcome Ref :=
  st.withSpan b fun s => (Outcome.expects (decide (i < s.size))).bind fun _ => .ok ⟨b, i⟩

/-- experimental/span.hpp:102-108 `front`. -/
def front {α : Type} (st : State α) (b : Nat) : Outcome Ref :=
  st.withSpan b fun s => (Outcome.expects (!s.empty)).bind fun _ => .ok ⟨b, 0⟩

/-- experimental/span.hpp:109-115 `back`; `size_ - 1` wraps around for an empty span and becomes `-1` in the conversion. -/
def back {α : Type} (st : State α) (b : Nat) : Outcome Ref :=
  st.withSpan b fun s => (Outcome.expects (!s.empty)).bind fun _ => .ok ⟨b, (s.size : Int) - 1⟩

/-- The element at a pointer plus an index. -/
def readCell {α : Type} (st : State α) (p : Ptr) (index : Int) : Outcome α :=
  let pos := (p.off : Int) + index
  if pos < 0 then .ub
  else match (st.cells p.arr)[pos.toNat]? with
    | some v => .ok v
    | none => .ub

/-- Assignment to the element at a pointer plus an index.  Writing to an array which is defined `const` is undefined. -/
def writeCell {α : Type} (st : State α) (p : Ptr) (index : Int) (v : α) : Outcome (State α) :=
  let pos := (p.off : Int) + index
  if pos < 0 ∨ (st.cells p.arr).length ≤ pos.toNat ∨ st.isConst p.arr = true then .ub
  else .ok { st with cells := fun a => if a = p.arr then (st.cells a).set pos.toNat v else st.cells a }

/-- Read all columns. -/
def readRow {α : Type} (st : State α) (index : Int) : List Ptr → Outcome (List α)
  | [] => .ok []
  | p :: ps => (readCell st p index).bind fun v => (readRow st index ps).bind fun vs => .ok (v :: vs)

/-- experimental/detail/span.hpp:75-84: conversion of a reference to a tuple of values. -/
def toTuple {α : Type} (st : State α) (r : Ref) : Outcome (List α) :=
  st.withSpan r.obj fun s => readRow st r.index s.data

/-- experimental/detail/span.hpp:86-91 `get<I>()`, read (`I` is checked at compile time: `none` is ill-formed). -/
def getElem {α : Type} (st : State α) (r : Ref) (k : Nat) : Outcome (Option α) :=
  st.withSpan r.obj fun s =>
    match s.data[k]? with
    | some p => (readCell st p r.index).mapVal some
    | none => .ok none

/-- The `template_for()` of experimental/detail/span.hpp:66-72: columns in order. -/
def writeRow {α : Type} (st : State α) (index : Int) : List Ptr → List α → Outcome (State α)
  | p :: ps, v :: vs => (writeCell st p index v).bind fun st => writeRow st index ps vs
  | _, _ => .ok st

/-- experimental/detail/span.hpp:64-74: assignment of a tuple of values. -/
def assignTuple {α : Type} (st : State α) (r : Ref) (vals : List α) : Outcome (State α) :=
  st.withSpan r.obj fun s => writeRow st r.index s.data vals

/-- The `template_for()` of experimental/detail/span.hpp:55-61. -/
def copyRow {α : Type} (st : State α) (dst src : Int) : List Ptr → List Ptr → Outcome (State α)
  | p :: ps, q :: qs => (readCell st q src).bind fun v => (writeCell st p dst v).bind fun st => copyRow st dst src ps qs
  | _, _ => .ok st

/-- experimental/detail/span.hpp:53-63: assignment of a reference. -/
def assignRef {α : Type} (st : State α) (dst src : Ref) : Outcome (State α) :=
  st.withSpan dst.obj fun s => st.withSpan src.obj fun t => copyRow st dst.index src.index s.data t.data

/-- The `template_for()` of experimental/detail/span.hpp:98-106, with `std::swap()` of two elements. -/
def swapRow {α : Type} (st : State α) (i j : Int) : List Ptr → List Ptr → Outcome (State α)
  | p :: ps, q :: qs => (readCell st p i).bind fun a => (readCell st q j).bind fun b =>
    (writeCell st p i b).bind fun st => (writeCell st q j a).bind fun st => swapRow st i j ps qs
  | _, _ => .ok st

/-- experimental/detail/span.hpp:94-107 `swap`. -/
def swapRefs {α : Type} (st : State α) (l r : Ref) : Outcome (State α) :=
  st.withSpan l.obj fun s => st.withSpan r.obj fun t => swapRow st l.index r.index s.data t.data

/-- experimental/span.hpp:74-78 `begin`. -/
def begin' (b : Nat) : Ref := ⟨b, 0⟩

/-- experimental/span.hpp:79-83 `end`. -/
def end' {α : Type} (st : State α) (b : Nat) : Outcome Ref := st.withSpan b fun s => .ok ⟨b, s.size⟩

/-- experimental/detail/span.hpp:142-149: dereferencing with an offset (`operator *` is offset 0). -/
def Ref.plus (it : Ref) (n : Int) : Ref := { it with index := it.index + n }

/-- experimental/detail/span.hpp:192-195. -/
def Ref.minus (l r : Ref) : Int := l.index - r.index

/-- experimental/detail/span.hpp:203-206. -/
def Ref.eq (l r : Ref) : Bool := decide (l.index = r.index)

/-- `swap(first[a], first[b])` for a span iterator `first`, as used by the permutation algorithms (experimental/algorithm.hpp:52, 84,
algorithm.hpp:50); `none` is undefined. -/
def swapRows {α : Type} (first : Ref) (st : State α) (a b : Nat) : Option (State α) :=
  match swapRefs st (first.plus a) (first.plus b) with
  | .ok st => some st
  | _ => none

/-- A span object is created, replaced or destroyed. -/
def State.setSpan {α : Type} (st : State α) (b : Nat) (x : Option Span) : State α :=
  { st with spans := fun j => if j = b then x else st.spans j }

/-! Which statements compile, depending on which columns are declared `const` (`none`: ill-formed). -/

/-- `s[i] = vals` (experimental/detail/span.hpp:64-74): the operator is not constrained, and the pointers are to non-const (experimental/span.hpp:38, 58). -/
def assignTupleQ {α : Type} (_quals : List Bool) (st : State α) (r : Ref) (vals : List α) : Option (Outcome (State α)) :=
  some (assignTuple st r vals)

/-- `s[i] = s[j]` (experimental/detail/span.hpp:53-63): not constrained either. -/
def assignRefQ {α : Type} (_quals : List Bool) (st : State α) (dst src : Ref) : Option (Outcome (State α)) :=
  some (assignRef st dst src)

/-- `swap(s[i], s[j])` (experimental/detail/span.hpp:94-107): constrained to columns which are not `const`. -/
def swapQ {α : Type} (quals : List Bool) (st : State α) (l r : Ref) : Option (Outcome (State α)) :=
  if quals.all (! ·) then some (swapRefs st l r) else none

/-- `get<I>(s[i]) = v` (experimental/detail/span.hpp:86-91): the reference is to the declared column type. -/
def assignElemQ {α : Type} (quals : List Bool) (st : State α) (r : Ref) (k : Nat) (v : α) : Option (Outcome (State α)) :=
  match quals[k]? with
  | some false => some (st.withSpan r.obj fun s =>
      match s.data[k]? with
      | some p => writeCell st p r.index v
      | none => .ub)
  | _ => none

end Makeshift.Soa
