import Verif.Model.Constval
import Verif.Model.TypeTraits

/-!
# Constvals of arrays and tuples made of constvals

Model of `make_array_constant`, `make_tuple_constant` (constval.hpp:351-357, 413-421) and of class template argument deduction for
`array_constant` (constval.hpp:333-334).  As in `Verif.Model.Constval`, `none` means ill-formed.

Types are identified by number.  Of the types which are not valid non-type template parameter types only the name is needed; it is
given by a function `name` from values to type numbers.
-/

namespace Makeshift.Constval

/-- The type of a value: whether it is a valid non-type template parameter type (detail/constval.hpp:144 `is_valid_nttp_`), and its
number. -/
def valueType (name : Val → Nat) : Val → Bool × Nat
  | .scalar ty _ => (true, ty)
  | v => (false, name v)

/-- constval.hpp:354-357 `make_array_constant`: `Cs::value_type` must exist and be the same for all arguments
(detail/type_traits.hpp:165-169 `equal_types_`, which has no `common_type` if there are no arguments), and the elements are passed by
value or by reference depending on their type (detail/constval.hpp:228-231 `array_constant_element_type_`). -/
def makeArrayConstant (env : Env) (name : Val → Nat) (cs : List CT) : Option CT :=
  if cs.all hasValueType then
    (evalList env cs).bind fun vs =>
      match equalTypes (vs.map (valueType name)) with
      | some (true, ty) => (vs.mapM (asScalar ty)).map (.arrayConstant ty)
      | some (false, ty) => some (.arrayConstantRef false ty cs)
      | none => none
  else none

/-- constval.hpp:416-421 `make_tuple_constant` and constval.hpp:365-391 `tuple_constant`: every argument must be a constval and have
a `value_type`. -/
def makeTupleConstant (cs : List CT) : Option CT :=
  if cs.all hasValueType then some (.tupleConstant cs) else none

/-- detail/constval.hpp:213-226 `constant_`, for `C::value` as an argument of `array_constant`: for a valid non-type template parameter
type that is `integral_constant`, otherwise `make_constval_1_` applied to `ref_constval<T, C::value>`. -/
def constantOf (env : Env) (c : CT) : Option CT :=
  (eval env c).bind fun v => norm1 v (.refTo c)

/-- Whether the type is an instance of `array_constant`. -/
def isArrayConstant : CT → Bool
  | .arrayConstant _ _ => true
  | .arrayConstantRef _ _ _ => true
  | _ => false

/-- `array_constant{ cs... }` is well-formed and has type `a` (constval.hpp:294, 333-334).  For a single argument which is itself an
`array_constant` the copy deduction candidate is more specialised than the deduction guide.  Otherwise the guide applies, and every
argument must have the type of the respective constructor parameter `constant_<T, Vs>::type` (there is no conversion between different
constval types of equal value type). -/
def DeducedArrayConstant (env : Env) (name : Val → Nat) (cs : List CT) (a : CT) : Prop :=
  match cs, cs.map isArrayConstant with
  | [c], [true] => a = c
  | cs, _ => makeArrayConstant env name cs = some a ∧ ∀ c ∈ cs, constantOf env c = some c

end Makeshift.Constval
