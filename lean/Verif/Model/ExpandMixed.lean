import Verif.Model.Expand

/-!
# `expand` if the listed values have another type than the runtime value

Model of `detail/variant.hpp` lines 62-181 and `variant.hpp` lines 43-50, 98-105, 153-160 with a runtime value of integral type `t` and listed
values of integral type `u`.  (Values of enumeration type can be compared only with values of the same type, unless the enumeration is
unscoped; these are given by the underlying type.)  `bool` is `int` with values 0 and 1, to which it is promoted in all operations and which is
its representation type (detail/variant.hpp:175).
-/

namespace Makeshift

/-- Usual arithmetic conversions ([expr.arith.conv]): the type in which operands of types `t` and `u` are compared.  The three rules for operands of
different signedness are expressed by the widths alone. -/
def IntTy.common (t u : IntTy) : IntTy :=
  let t := t.promote
  let u := u.promote
  if t.signed = u.signed then (if t.bits < u.bits then u else t)
  else if t.signed then (if t.bits ≤ u.bits then u else t)
  else (if u.bits ≤ t.bits then t else u)

/-- `a < b` with operands of types `t` and `u`. -/
def mixedLess (t u : IntTy) (a b : Int) : Bool := decide ((t.common u).wrap a < (t.common u).wrap b)

/-- `a == b` with operands of types `t` and `u`. -/
def mixedEq (t u : IntTy) (a b : Int) : Bool := decide ((t.common u).wrap a = (t.common u).wrap b)

/-- detail/variant.hpp:132-137 `search_value_index_1`, non-contiguous case.  Whether the list is sorted is decided by comparing listed values with
each other (line 135); the searches compare a listed value and the runtime value. -/
def searchGeneralMixed (t u : IntTy) (value : Int) (values : List Int) : Outcome Int :=
  if areValuesSorted (fun a b => decide (a < b)) values then binarySearch (mixedLess t u) (mixedEq t u) value values
  else .ok (linearSearchFrom (mixedEq t u) value 0 values)

/-- detail/variant.hpp:159-164 `search_value_index_0`, 177-181 `search_value_index`: in the contiguous case the listed values are converted to the type
of the runtime value. -/
def searchMixed (t u : IntTy) (value : Int) (values : List Int) : Outcome Int :=
  (areValuesContiguous t values).bind fun contiguous =>
    match contiguous, values with
    | true, v0 :: _ => searchContiguous t value v0 values.length
    | _, _ => searchGeneralMixed t u value values

/-- variant.hpp:43-50 `expand_failfast`, 98-105 `try_expand`, 153-160 `expand`. -/
def expandMixed (mode : ExpandMode) (t u : IntTy) (value : Int) (values : List Int) : Outcome (Option Int) :=
  expandWith mode (searchMixed t u value values) values

end Makeshift
