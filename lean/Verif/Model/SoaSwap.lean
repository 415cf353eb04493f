import Verif.Model.SoaSpan

/-!
# `swap()` for named references to the rows of a `soa_span`

Model of overload resolution for `swap(a, b)` with two arguments of the type `soa_reference<Ts...>` (experimental/detail/span.hpp:94-107), depending on how the
arguments are given and whether `std::swap()` is found as well.
-/

namespace Makeshift.Soa

/-- How an argument is given: e.g. `s[i]`, `std::move(a)`, `a`, or `a` resp. `std::move(a)` where `a` is declared `auto const a = s[i];`. -/
inductive Form where
  | prvalue
  | xvalue
  | lvalue
  | constLvalue
  | constXvalue
  deriving DecidableEq, Repr

/-- A column type, as far as overload resolution looks at it: whether it is `const`, and whether namespace `std` is among its associated namespaces
([basic.lookup.argdep]), as for `std::string`. -/
structure ColumnType where
  isConst : Bool
  ofStd : Bool
  deriving DecidableEq, Repr

/-- The two candidates: `swap()` for rows, and the generic `std::swap()`. -/
inductive SwapFunc where
  | rows
  | generic
  deriving DecidableEq, Repr

/-- experimental/detail/span.hpp:94-96: the parameters `soa_reference<Ts...> const&` accept all forms; the return type excludes `const` columns. -/
def rowsViable (cols : List ColumnType) : Bool := cols.all fun c => !c.isConst

/-- The type deduced for `T` in `T&` ([temp.deduct.call]): `some isConst`, or `none` if the argument is an rvalue which is not `const` and hence cannot be bound. -/
def deducedConst : Form → Option Bool
  | .prvalue => none
  | .xvalue => none
  | .lvalue => some false
  | .constLvalue => some true
  | .constXvalue => some true

/-- `std::swap(T&, T&)` ([utility.swap]) takes part if both arguments can be bound with the same `T`, and `T` is move-constructible and move-assignable.  The
latter does not hold for `const` references, since `operator =` (experimental/detail/span.hpp:53, 64) is not a `const` member function. -/
def genericViable (a b : Form) : Bool :=
  match deducedConst a, deducedConst b with
  | some ca, some cb => ca == cb && !ca
  | _, _ => false

/-- Whether `std::swap()` is found: by a using-declaration (or because the call is made in namespace `std`), or by argument-dependent lookup, which looks into
the namespaces of the column types. -/
def genericFound (usingStd : Bool) (cols : List ColumnType) : Bool := usingStd || cols.any fun c => c.ofStd

/-- Overload resolution ([over.match.best]).  If both are viable then the arguments are lvalues of non-const type, and the generic function is better because
it binds them to references to non-const ([over.ics.rank]).  `none`: ill-formed. -/
def selectSwap (usingStd : Bool) (cols : List ColumnType) (a b : Form) : Option SwapFunc :=
  if genericFound usingStd cols && genericViable a b then some .generic
  else if rowsViable cols then some .rows
  else none

/-- The generic `std::swap(a, b)`: `T tmp = std::move(a); a = std::move(b); b = std::move(tmp);`.  The copy constructor of `soa_reference` (experimental/detail/span.hpp:52)
makes another reference to the same row; the assignments (53-63) assign rows. -/
def genericSwap {α : Type} (st : State α) (a b : Ref) : Outcome (State α) :=
  let tmp := a
  (assignRef st a b).bind fun st => assignRef st b tmp

/-- `swap(a, b)`. -/
def swapCall {α : Type} (usingStd : Bool) (cols : List ColumnType) (fa fb : Form) (st : State α) (a b : Ref) : Option (Outcome (State α)) :=
  (selectSwap usingStd cols fa fb).map fun f =>
    match f with
    | .rows => swapRefs st a b
    | .generic => genericSwap st a b

/-- `std::iter_swap(it, jt)`, which is `swap(*it, *jt)` in namespace `std`; the iterators of a `soa_span` yield prvalues (experimental/detail/span.hpp:142-145). -/
def iterSwap {α : Type} (cols : List ColumnType) (st : State α) (it jt : Ref) : Option (Outcome (State α)) :=
  swapCall true cols .prvalue .prvalue st it jt

/-- The deleted function `template <class T> void swap(T&, T&) = delete;` of [concept.swappable] is viable if both arguments can be bound with the same `T`. -/
def pillViable (a b : Form) : Bool :=
  match deducedConst a, deducedConst b with
  | some ca, some cb => ca == cb
  | _, _ => false

/-- `std::ranges::swap(a, b)` ([concept.swappable]): the function found by argument-dependent lookup, unless overload resolution yields the deleted one.
That one is better for lvalues which are not `const`; for `const` arguments the bindings are the same, and the function for rows is more specialised.  If there is
no such function: the exchange by moves, for lvalues (not xvalues) which are not `const`.  (`std::swap()` itself may be found by argument-dependent lookup through the
column types; it is ambiguous with the deleted function then, which is the same as no function.) -/
def rangesSwap {α : Type} (cols : List ColumnType) (fa fb : Form) (st : State α) (a b : Ref) : Option (Outcome (State α)) :=
  if rowsViable cols && !(pillViable fa fb && decide (deducedConst fa = some false)) then some (swapRefs st a b)
  else if fa = .lvalue ∧ fb = .lvalue then some (genericSwap st a b)
  else none

/-- Exchanging rows by way of a tuple of values: `value_type tmp = a; a = b; b = tmp;` (conversion experimental/detail/span.hpp:75-84, assignments 53-74). -/
def exchangeByValue {α : Type} (st : State α) (a b : Ref) : Outcome (State α) :=
  (toTuple st a).bind fun tmp => (assignRef st a b).bind fun st => assignTuple st b tmp

end Makeshift.Soa
