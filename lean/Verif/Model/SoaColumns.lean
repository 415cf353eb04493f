import Verif.Model.SoaSpan

/-!
# The columns of a `soa_span`

Model of the tuple-like interface of `soa_span` (experimental/span.hpp lines 149-176, experimental/detail/span.hpp lines 258-261) and of the
conversions between its iterator and reference types (experimental/detail/span.hpp lines 36-63, 110-140).
-/

namespace Makeshift.Soa

/-- A `gsl::span<>`: a pointer to its first element, and its size. -/
abbrev Col := Ptr × Nat

/-- experimental/span.hpp:149-155 `get<I>(s)`; `I` is checked at compile time (`none`: ill-formed). -/
def Span.get (s : Span) (I : Nat) : Option Col := (s.data[I]?).map fun p => (p, s.size)

/-- experimental/detail/span.hpp:260 `std::tuple_size<>`: the number of column types.  (The span has as many pointers.) -/
def Span.tupleSize (s : Span) : Nat := s.data.length

/-- All columns in order, `auto [c0, c1, ...] = s;`.  `none` if one of the calls of `get<I>()` is ill-formed. -/
def Span.bindings (s : Span) : Option (List Col) := (List.range s.tupleSize).mapM s.get

/-- experimental/span.hpp:172-177 `make_soa_span`. -/
def makeSoaSpan (cols : List Col) : Outcome Span := makeSpan cols

/-- `gsl::span<>::operator []`, which checks the index. -/
def Col.at {α : Type} (st : State α) (c : Col) (i : Nat) : Outcome α :=
  (Outcome.expects (decide (i < c.2))).bind fun _ => readCell st c.1 i

/-- Assignment to an element of a `gsl::span<>`. -/
def Col.set {α : Type} (st : State α) (c : Col) (i : Nat) (v : α) : Outcome (State α) :=
  (Outcome.expects (decide (i < c.2))).bind fun _ => writeCell st c.1 i v

/-! Types.  A column type is an element type and whether it is `const`; the types of a span, an iterator or a reference are given by the
list of its column types. -/

/-- The type of the elements of a column. -/
structure ColTy where
  ty : Nat
  const : Bool
  deriving DecidableEq, Repr

/-- `T const`. -/
def ColTy.addConst (t : ColTy) : ColTy := { t with const := true }

/-- experimental/span.hpp:53: the column types of `iterator`. -/
def iteratorTy (ts : List ColTy) : List ColTy := ts

/-- experimental/span.hpp:54: the column types of `const_iterator`. -/
def constIteratorTy (ts : List ColTy) : List ColTy := ts.map ColTy.addConst

/-- experimental/span.hpp:51 `reference`. -/
def referenceTy (ts : List ColTy) : List ColTy := ts

/-- experimental/span.hpp:52 `const_reference`. -/
def constReferenceTy (ts : List ColTy) : List ColTy := ts.map ColTy.addConst

/-- experimental/detail/span.hpp:133-134: the constraint of the converting constructor of `soa_span_iterator<Ts...>` for `soa_span_iterator<RTs...>`.  The
packs are expanded together in the last argument, which is a substitution failure if their lengths differ. -/
def convertingCtor (ts rs : List ColTy) : Bool :=
  decide (ts.length = rs.length) && (ts.all (·.const) && rs.all (! ·.const) && (ts.zip rs).all fun (t, r) => decide (t = r.addConst))

/-- Whether a `soa_span_iterator<Ts...>` can be initialised with a `soa_span_iterator<RTs...>`: by the copy constructor (139) or by the
converting constructor (133-138). -/
def iteratorFrom (ts rs : List ColTy) : Bool := decide (ts = rs) || convertingCtor ts rs

/-- Whether a `soa_reference<Ts...>` can be initialised with a `soa_reference<RTs...>`: only by the copy constructor (52).  The other
constructor (46) is private. -/
def referenceFrom (ts rs : List ColTy) : Bool := decide (ts = rs)

/-- experimental/detail/span.hpp:133-138: the result of the conversion. -/
def convertIterator (it : Ref) : Ref := ⟨it.obj, it.index⟩

/-- experimental/span.hpp:84-88 `cbegin`. -/
def cbegin (b : Nat) : Ref := ⟨b, 0⟩

/-- experimental/span.hpp:89-93 `cend`. -/
def cend {α : Type} (st : State α) (b : Nat) : Outcome Ref := st.withSpan b fun s => .ok ⟨b, s.size⟩

/-- experimental/span.hpp:47 `element_type`: a tuple of the column types. -/
def elementTy (ts : List ColTy) : List ColTy := ts

/-- experimental/span.hpp:48 `value_type`: a tuple of the column types without `const`. -/
def valueTy (ts : List ColTy) : List ColTy := ts.map fun t => { t with const := false }

/-- experimental/detail/span.hpp:127: `value_type` of the iterator with the column types `ts`. -/
def iteratorValueTy (ts : List ColTy) : List ColTy := ts

end Makeshift.Soa
