import Verif.Model.Zip
import Verif.Model.TupleAlgo
import Verif.Model.ExpandMixed

/-!
# Reductions of machine integers

`range_reduce` and `range_transform_reduce` keep the result in an object of the type of the initial value, to which the reducer's result is converted
after every call (algorithm.hpp:172-178, 197-202).  `template_reduce` and `template_transform_reduce` pass the reducer's result on as it is
(detail/tuple.hpp:152-163).  The two differ if the reducer returns another type than that of the initial value, such as `std::plus<>{ }` for operands of
different or small integer types.

Modelled: the algorithms of `Model/Zip.lean` and `Model/TupleAlgo.lean` for integer elements and the transparent function objects of `<functional>`.
An arithmetic operation whose behaviour is undefined makes the outcome of the reduction undefined.
-/

namespace Makeshift

/-- The transparent function objects `std::plus<>`, `std::minus<>`, `std::multiplies<>` of `<functional>`. -/
inductive ArithOp where
  | plus
  | minus
  | multiplies
  deriving DecidableEq, Repr

/-- The operation of the function object, for operands which have been converted to the same type. -/
def ArithOp.apply : ArithOp → Int → Int → Int
  | .plus, a, b => a + b
  | .minus, a, b => a - b
  | .multiplies, a, b => a * b

/-- A call of the function object with arguments of types `t` and `u` ([arithmetic.operations]): the operands are converted to their common type, which is
also the type of the result. -/
def ArithOp.call (op : ArithOp) (t u : IntTy) (a b : Int) : Outcome Int :=
  (t.common u).arith (op.apply ((t.common u).wrap a) ((t.common u).wrap b))

/-- algorithm.hpp:177 and 200 `result = reduce(std::move(result), ...)` for a `result` of type `t` and an element of type `u`: the assignment converts to
`t`. -/
def reduceAssign (op : ArithOp) (t u : IntTy) (result : Outcome Int) (elem : Int) : Outcome Int :=
  result.bind fun r => (op.call t u r elem).mapVal t.wrap

/-- algorithm.hpp:191-203 `range_reduce` for an initial value of type `t` and a range of elements of type `u`. -/
def rangeReduceInt (op : ArithOp) (t u : IntTy) (init : Int) (elems : List Int) : Outcome Int :=
  rangeReduce (.ok init) (reduceAssign op t u) elems

/-- algorithm.hpp:164-179 `range_transform_reduce` for an initial value of type `t` and a transformation which returns values of type `u`. -/
def rangeTransformReduceInt {α : Type} (op : ArithOp) (t u : IntTy) (init : Int) (transform : List (Arg α) → Int) (rs : List (Rng α)) (fuel : Nat) :
    Result (Outcome Int) :=
  rangeTransformReduce (.ok init) (reduceAssign op t u) transform rs fuel

/-- detail/tuple.hpp:156-158: the result of the call of the reducer, with its type, is the next argument `value`. -/
def reducePass (op : ArithOp) (value : Outcome (IntTy × Int)) (elem : IntTy × Int) : Outcome (IntTy × Int) :=
  value.bind fun v => (op.call v.1 elem.1 v.2 elem.2).mapVal fun r => (v.1.common elem.1, r)

/-- The argument passed by `get_element<I>` (detail/tuple-transform.hpp:37-66): a tuple element, or a `gsl::index`, which is a `std::ptrdiff_t`. -/
def intElem : TVal (IntTy × Int) → IntTy × Int
  | .elem x => x
  | .index i => (.ptrdiffT, i)
  | .indexConstant i => (.ptrdiffT, i)

/-- tuple.hpp:250-259 `template_reduce` for an initial value and a tuple of integers, each with its type; `none` if the call is ill-formed. -/
def templateReduceInt (op : ArithOp) (init : IntTy × Int) (elems : List (IntTy × Int)) : Option (Outcome (IntTy × Int)) :=
  (templateReduce elems (.ok init) (fun v e s => (reducePass op v (intElem e), s)) ()).map Prod.fst

/-- tuple.hpp:229-238 `template_transform_reduce` for a transformation without side effects which returns integers of the given types. -/
def templateTransformReduceInt {α : Type} (op : ArithOp) (init : IntTy × Int) (transform : List (TVal α) → IntTy × Int) (args : List (TArg α)) :
    Option (Outcome (IntTy × Int)) :=
  (templateTransformReduce (.ok init) (fun v e s => (reducePass op v e, s)) (fun vs s => (transform vs, s)) args ()).map Prod.fst

end Makeshift
