import Verif.Outcome

/-!
# `to_stream` and `from_stream`

Model of iostream.hpp lines 20-89.

The effect of an operator `<<` or `>>` on a stream and its argument is a function of the state of the program; which overload is chosen depends
on the constness and the value category of the argument expression.
-/

namespace Makeshift.StreamFn

/-- Constness and value category of an expression. -/
structure Cat where
  const : Bool
  rvalue : Bool
  deriving DecidableEq, Repr

/-- What `stream << arg` (or `stream >> arg`) does for an argument expression of a type: the state afterwards; `none` if there is no viable
overload.  The result of the operator is the stream. -/
structure Operand (σ : Type) where
  op : Cat → Option (σ → Outcome σ)

/-- An argument expression: an object of the type, or the name of an overloaded function or function template (such as `std::endl`), from which
a template argument cannot be deduced ([temp.deduct.call]). -/
inductive Arg (σ : Type) where
  | object (ty : Nat) (x : Operand σ) (c : Cat)
  | overloadSet (x : Operand σ)

/-- The expression `stream << arg` or `stream >> arg` itself. -/
def direct {σ : Type} : Arg σ → Option (σ → Outcome σ)
  | .object _ x c => x.op c
  | .overloadSet x => x.op ⟨false, false⟩

/-- iostream.hpp:46-52 `to_stream<>::operator ()`: the parameter is `T const&`, so inside the function the argument is a const lvalue; without
viable operator `decltype(stream << arg)` is a substitution failure. -/
def toStream {σ : Type} : Arg σ → Option (σ → Outcome σ)
  | .object _ x _ => x.op ⟨true, false⟩
  | .overloadSet _ => none

/-- iostream.hpp:82-88 `from_stream<>::operator ()`: the parameter is `T&`, with `T` deduced from an lvalue (or from a const rvalue, as a const
type); it does not bind to a non-const rvalue. -/
def fromStream {σ : Type} : Arg σ → Option (σ → Outcome σ)
  | .object _ x c => if c.rvalue && !c.const then none else x.op ⟨c.const, false⟩
  | .overloadSet _ => none

/-- iostream.hpp:23-35 `to_stream<T>`: whether the class can be instantiated.  The return type of its member function is part of the
declaration, which is instantiated with the class. -/
def toStreamClass {σ : Type} (x : Operand σ) : Bool := (x.op ⟨true, false⟩).isSome

/-- iostream.hpp:59-71 `from_stream<T>`, where `T` has the given constness. -/
def fromStreamClass {σ : Type} (const : Bool) (x : Operand σ) : Bool := (x.op ⟨const, false⟩).isSome

/-- iostream.hpp:29-34: a call of `to_stream<T>`, for a type `ty` with the operator `x`, with an argument of that type (conversions are not
modelled); the outer `none`: the class cannot be instantiated. -/
def toStreamOf {σ : Type} (ty : Nat) (x : Operand σ) (c : Cat) : Option (σ → Outcome σ) :=
  if toStreamClass x then toStream (.object ty x c) else none

/-- iostream.hpp:65-70: a call of `from_stream<T>` with an argument of type `T`; the parameter `T&` binds to lvalues which are not more const
than `T`, and, if `T` is const, to rvalues. -/
def fromStreamOf {σ : Type} (const : Bool) (x : Operand σ) (c : Cat) : Option (σ → Outcome σ) :=
  if fromStreamClass const x then
    if const || (!c.const && !c.rvalue) then x.op ⟨const, false⟩ else none
  else none

/-- detail/iomanip.hpp:30-31, 42-43, 80-81: the operators of `as_enum(x)`, `as_flags(x)` and all other results of manipulators have a parameter of
type `bound_manipulator&&`, which binds to non-const rvalues only. -/
def manipulatorOperand {σ : Type} (effect : σ → Outcome σ) : Operand σ := ⟨fun c => if c.rvalue && !c.const then some effect else none⟩

end Makeshift.StreamFn
