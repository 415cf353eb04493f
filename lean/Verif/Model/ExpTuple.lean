import Verif.Model.TypeTraits

/-!
# Element replacement and selection in tuples

Model of `experimental/tuple.hpp` and `experimental/detail/tuple.hpp`.  A tuple type is the list of its element types (not `const`, no
references; the template has type parameters only, as `std::tuple` and `std::pair`, but not `std::array`, for which `with` does not
compile), a tuple object the list of its values.  Values are elements of an arbitrary type `Val`; copying or moving a value of the same type
leaves it unchanged.  `none` is a call that does not compile.
-/

namespace Makeshift.ExpTuple

variable {Ty Val : Type} [DecidableEq Ty]

/-- Construction of an object of the second type from one of the first, where they differ. -/
abbrev Convert (Ty Val : Type) := Ty → Ty → Option (Val → Val)

/-- Initialisation of a tuple element from a value ([tuple.cnstr]): a copy, or a conversion. -/
def construct (conv : Convert Ty Val) (src dst : Ty) : Option (Val → Val) := if src = dst then some id else conv src dst

/-- experimental/detail/tuple.hpp:44-45 `replace_element`: the primary template derives from `std::tuple_element<I, TupleT>`. -/
def replaceElement (I : Nat) (newT : Ty) (J : Nat) (Ts : List Ty) : Option Ty := if J = I then some newT else Ts[I]?

/-- experimental/detail/tuple.hpp:47-49 `with_element`. -/
def withElement (I : Nat) (newT : Ty) (Ts : List Ty) : Option (List Ty) :=
  (List.range Ts.length).mapM fun J => replaceElement I newT J Ts

/-- experimental/detail/tuple.hpp:32-42 `get_or_replace`: type and value passed for position `J`. -/
def getOrReplace (I : Nat) (Ts : List Ty) (vals : List Val) (newT : Ty) (newElement : Val) (J : Nat) : Option (Ty × Val) :=
  if J = I then some (newT, newElement) else (Ts[J]?).bind fun T => (vals[J]?).map fun v => (T, v)

/-- experimental/tuple.hpp:33, 53, 71, 85 `std::enable_if_t<is_tuple_like_v<TupleT>>` for a parameter `TupleT&&` whose argument is a tuple:
`TupleT` is an lvalue reference type for an lvalue argument, and `is_tuple_like` (type_traits.hpp:203, detail/type_traits.hpp:202-203: can
`std::tuple_size<T>::value` be instantiated) holds only for the types that have a tuple size, not for references to them. -/
def accepts (lvalue : Bool) : Bool := !lvalue

/-- experimental/detail/tuple.hpp:51-57 `detail::with`, experimental/tuple.hpp:70-76 `with<I>(tuple, newElement)`: types and values of
the result.  `lvalue` tells whether the argument `tuple` is an lvalue, `const` or not. -/
def withIndex (conv : Convert Ty Val) (lvalue : Bool) (I : Nat) (Ts : List Ty) (vals : List Val) (newT : Ty) (newElement : Val) :
    Option (List Ty × List Val) :=
  if !accepts lvalue then none
  else (withElement I newT Ts).bind fun Rs =>
    ((List.range Ts.length).mapM fun J =>
      (getOrReplace I Ts vals newT newElement J).bind fun a =>
        (Rs[J]?).bind fun R => (construct conv a.1 R).map fun f => f a.2).map fun vs => (Rs, vs)

/-- experimental/tuple.hpp:84-91 `with<T>(tuple, newElement)`.  The element types of a `const` tuple are `const`; the first component
of the types compared tells whether a type is. -/
def withType (conv : Convert Ty Val) (lvalue : Bool) (T : Ty) (isConst : Bool) (Ts : List Ty) (vals : List Val) (newT : Ty)
    (newElement : Val) : Option (List Ty × List Val) :=
  if !accepts lvalue then none
  else (tupleElementIndex true (fun (q : Bool × Ty) => decide ((false, T) = q)) (Ts.map fun U => (isConst, U))).bind fun index =>
    withIndex conv lvalue index.toNat Ts vals newT newElement

/-- experimental/tuple.hpp:99-105 `with(tuple, where, newElement)`; `pred` is the value of the predicate's result type for an element
type.  Not constrained itself, but calls `with<I>`. -/
def withPred (conv : Convert Ty Val) (lvalue : Bool) (pred : Ty → Bool) (Ts : List Ty) (vals : List Val) (newT : Ty)
    (newElement : Val) : Option (List Ty × List Val) :=
  (tupleElementIndex true pred Ts).bind fun index => withIndex conv lvalue index.toNat Ts vals newT newElement

/-- experimental/tuple.hpp:37, 57: the index computed by `single` and `single_or_default` is that of the *tuple type* in the list
consisting of the *predicate type*. -/
def singleIndex (tupleT predT : Ty) : Int := tryTypePackIndex tupleT [predT]

/-- experimental/tuple.hpp:32-43 `single(tuple, where)`. -/
def single (lvalue : Bool) (tupleT predT : Ty) (vals : List Val) : Option Val :=
  if !accepts lvalue then none
  else if singleIndex tupleT predT = -1 then none
  else if singleIndex tupleT predT = -2 then none
  else vals[(singleIndex tupleT predT).toNat]?

/-- experimental/tuple.hpp:52-61 `single_or_default(tuple, where, default)`, experimental/detail/tuple.hpp:16-29: the first overload is
never viable, as its parameter `I` of type `std::size_t` cannot be deduced from an integral constant of type `std::ptrdiff_t`. -/
def singleOrDefault (lvalue : Bool) (tupleT predT : Ty) (_vals : List Val) (dflt : Val) : Option Val :=
  if !accepts lvalue then none
  else if singleIndex tupleT predT = -2 then none
  else if singleIndex tupleT predT = -1 then some dflt
  else none

end Makeshift.ExpTuple
