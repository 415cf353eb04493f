/-!
# `forward_to` and the value-category wrappers

Model of experimental/functional.hpp:21-116 and experimental/detail/functional.hpp:37-90.

A function object has a state of type `S`; its call operators are given for each value category of the object expression.  `none`: a
call on such an expression does not compile.  Calls on `const` objects cannot change the state.  Arguments and results are abstract;
that the trailing return types make an overload non-viable if its body would not compile is modelled.
-/

namespace Makeshift.ExpFunctional

/-- Value category and constness of the object expression of a call. -/
inductive Cat where
  | lvalue | constLvalue | rvalue | constRvalue
  deriving DecidableEq, Repr

/-- A function object type: what a call does for each category of the object expression. -/
structure Functor (S A B : Type) where
  lvalue : Option (S → A → S × B)
  constLvalue : Option (S → A → B)
  rvalue : Option (S → A → S × B)
  constRvalue : Option (S → A → B)

/-- A call which does not change the state. -/
def pureCall {S A B : Type} (f : S → A → B) : S → A → S × B := fun s a => (s, f s a)

/-- A call expression. -/
def Functor.call {S A B : Type} (f : Functor S A B) : Cat → Option (S → A → S × B)
  | .lvalue => f.lvalue
  | .constLvalue => f.constLvalue.map pureCall
  | .rvalue => f.rvalue
  | .constRvalue => f.constRvalue.map pureCall

/-- The ref-qualified overloads of a call operator: `operator () &`, `operator () const &`, `operator () &&`; `none` if there is no
such overload, or if its trailing return type is ill-formed. -/
structure Overloads (S A B : Type) where
  ref : Option (S → A → S × B)
  constRef : Option (S → A → B)
  rvalueRef : Option (S → A → S × B)

/-- Overload resolution ([over.match.funcs], [over.ics.rank]): `&` accepts non-const lvalues, `&&` non-const rvalues, and `const &`
everything, but the others are better matches. -/
def Overloads.resolve {S A B : Type} (o : Overloads S A B) : Functor S A B where
  lvalue := o.ref.orElse fun _ => o.constRef.map pureCall
  constLvalue := o.constRef
  rvalue := o.rvalueRef.orElse fun _ => o.constRef.map pureCall
  constRvalue := o.constRef

/-- experimental/functional.hpp:52-72 `rvalue_ref_fn`. -/
def rvalueRefFn {S A B : Type} (f : Functor S A B) : Functor S A B := Overloads.resolve ⟨none, none, f.rvalue⟩

/-- experimental/functional.hpp:74-94 `lvalue_ref_fn`. -/
def lvalueRefFn {S A B : Type} (f : Functor S A B) : Functor S A B := Overloads.resolve ⟨f.lvalue, none, none⟩

/-- experimental/functional.hpp:96-116 `lvalue_const_ref_fn`. -/
def lvalueConstRefFn {S A B : Type} (f : Functor S A B) : Functor S A B := Overloads.resolve ⟨none, f.constLvalue, none⟩

/-- A function object `F` which yields an inner function that refers to its state: what `f()(args...)` does, for each category of `f`.
The inner function of a `const` object cannot change the state. -/
structure Made (S A B : Type) where
  /-- `static_cast<F&>(*this)()(args...)` -/
  lvalue : Option (S → A → S × B)
  /-- `static_cast<F const&>(*this)()(args...)` -/
  constLvalue : Option (S → A → B)
  /-- `static_cast<F&&>(*this)()(args...)` -/
  rvalue : Option (S → A → S × B)
  /-- `decltype(std::declval<F>()())` is well-formed -/
  nullaryRvalue : Bool

/-- experimental/functional.hpp:34-39 `forward_to`, experimental/detail/functional.hpp:37-90 `forward_to_impl`.  The primary template
(37-63), chosen unless `F` can be called without arguments, has a constructor which initialises a base class `F` that it does not have:
ill-formed. -/
def forwardTo {S A B : Type} (f : Made S A B) : Option (Functor S A B) :=
  if f.nullaryRvalue then some (Overloads.resolve ⟨f.lvalue, f.constLvalue, f.rvalue⟩) else none

end Makeshift.ExpFunctional
