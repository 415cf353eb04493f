import Verif.Model.Constval

/-!
# Proto-constvals which return references or `const` objects

Model of `make_constval` for functors whose call operator does not return a plain value.  `make_constval_` looks at
`decltype(std::declval<C>()())` (detail/constval.hpp:204), and its specialisations distinguish `T`, `T const` and `T const&`.

As in `Verif.Model.Constval`, `constval<T, F>` and `tuple_like_constval<T, F>` are represented by `F` alone, which determines `T` together
with its qualification.  Only user-defined functors can return something else than a plain value: the call operators of the library's own
functors return `auto` (detail/constval.hpp:100, 152, 254, 275), those of the constval classes their `value_type`.

Not modelled: rvalue references.
-/

namespace Makeshift.Constval

/-- How the call operator of a functor is declared. -/
inductive Returns where
  | value
  | constValue
  | constRef
  | ref
  deriving DecidableEq

/-- Functors with the way they return, and with the object referred to for those which return references. -/
structure FEnv where
  env : Env
  returns : Nat → Returns
  object : Nat → Nat

/-- A type `X` or `X const`. -/
structure QT where
  isConst : Bool
  type : CT

/-- detail/constval.hpp:184-201 for `T` = `X const`.  A prvalue of scalar type is never `const`.  No specialisation of
`make_constval_1_` matches `std::array<...> const` and `std::tuple<...> const`; `std::is_base_of<>` and `std::tuple_size<>` do not mind the
`const`. -/
def normConst : Val → CT → QT
  | .scalar ty v, _ => ⟨false, .integralConstant ty v⟩
  | .other _ _, c => ⟨false, .constval c⟩
  | .tupleLike _ _, c => ⟨false, .tupleLikeConstval c⟩
  | .array _ _ _, c => ⟨false, .tupleLikeConstval c⟩
  | .tuple _, c => ⟨false, .tupleLikeConstval c⟩
  | .obj c', c => if tagged c' then ⟨true, c'⟩ else ⟨false, .constval c⟩

/-- detail/constval.hpp:204-211, 330-334 `make_constval_` and `make_constval`.  For a reference type, `is_valid_nttp_`,
`std::is_base_of<>` and `is_tuple_like` are all false. -/
def makeConstval (fe : FEnv) : CT → Option QT
  | .functor id => match fe.returns id with
    | .value => (norm1 (fe.env.call id []) (.functor id)).map (⟨false, ·⟩)
    | .constValue => some (normConst (fe.env.call id []) (.functor id))
    | .constRef => some ⟨false, .constval (.functor id)⟩
    | .ref => some ⟨false, .constval (.functor id)⟩
  | c => (constvalT fe.env c).map (⟨false, ·⟩)

/-- Objects which an expression can refer to. -/
inductive Object where
  /-- the object which the functor refers to -/
  | user (o : Nat)
  /-- the variable `constval_value<F>` (detail/constval.hpp:60), a copy of what the functor returns -/
  | copy (f : CT)
  /-- the static data member of a constval class -/
  | member (c : CT)

/-- How the call operator of the functor within `constval<T, F>` returns. -/
def functorReturns (fe : FEnv) : CT → Returns
  | .functor id => fe.returns id
  | _ => .value

/-- detail/constval.hpp:73-76: the object to which the call operator of `constval<T, F>` returns a reference; `none` if it returns a
value. -/
def callObject (fe : FEnv) : CT → Option Object
  | .constval (.functor id) => match fe.returns id with
    | .constRef => some (.user (fe.object id))
    | .ref => some (.user (fe.object id))
    | _ => none
  | _ => none

/-- detail/constval.hpp:86: the object which `constval<T, F>::value` names; for `T const&` the reference is bound to
`constval_value<F>`.  For `T&` it cannot be bound to that constant: `none` means ill-formed. -/
def valueObject (fe : FEnv) : CT → Option Object
  | .constval f => match functorReturns fe f with
    | .constRef => some (.copy f)
    | .ref => none
    | _ => some (.member (.constval f))
  | c => some (.member c)

/-- detail/constval.hpp:60, 292-301 and constval.hpp:213-218: `constval_extract` of an object of constval type returns a copy of the
variable `constval_value<C>`.  For a functor which returns a reference to a non-`const` object, the object's value is not a constant
expression. -/
def extract (fe : FEnv) (c : CT) : Option Val :=
  match c with
  | .constval f => if functorReturns fe f = .ref then none else eval fe.env f
  | c => eval fe.env c

end Makeshift.Constval
