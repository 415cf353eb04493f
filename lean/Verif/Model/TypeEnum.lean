import Verif.Model.TypeTraits
import Verif.Model.MachineInt

/-!
# Type enumerations

Model of `define_type_enum_base` (experimental/detail/enum.hpp:35-157) and of the conversions of `type_c<T>`
(experimental/utility.hpp:38-45).  Types are elements of `Ty` as in `Model.TypeTraits`; an enumeration object is its member `value_`,
an enumeration type is the list of its types.  `none` is a construct that does not compile.
-/

namespace Makeshift.TypeEnum

variable {Ty : Type} [DecidableEq Ty]

/-- `std::int32_t`, the underlying type (experimental/detail/enum.hpp:56). -/
def int32 : IntTy := ⟨32, true⟩

/-- experimental/detail/enum.hpp:37 the `static_assert` on the number of types; it is absent from the specialisation for no types
(lines 93-113). -/
def wellFormed (Ts : List Ty) : Bool := Ts = [] ∨ Ts.length < 24

/-- experimental/detail/enum.hpp:40, 44-50 the enumerators of `value_t`. -/
def enumerators (Ts : List Ty) : List Int :=
  0 :: ((List.range 23).map fun (k : Nat) => if (Ts.length : Int) > k + 1 then (k : Int) + 1 else 0)

/-- experimental/detail/enum.hpp:65-73 the two explicit constructors; the specialisation for no types has neither.  The argument is
converted to `std::int32_t` when the constructor is called. -/
def fromInt (Ts : List Ty) (value : Int) : Option (Outcome Int) :=
  if Ts = [] then none
  else
    let v := int32.wrap value
    some ((Outcome.expects (decide (v ≥ 0) && decide (v < int32.wrap Ts.length))).bind fun _ => .ok v)

/-- experimental/detail/enum.hpp:80 conversion to the integer. -/
def toInt (e : Int) : Int := e

/-- experimental/utility.hpp:38-45 conversion of `type_c<T>` to the enumeration type or, in case labels, to its `value_t`. -/
def fromType (Ts : List Ty) (T : Ty) : Option (Outcome Int) :=
  if tryTypePackIndex T Ts ≠ -1 then fromInt Ts (tryTypePackIndex T Ts) else none

/-- experimental/utility.hpp:38-45 the same conversion to `value_t`, as in a case label: a plain cast of the index. -/
def caseLabel (Ts : List Ty) (T : Ty) : Option Int :=
  if tryTypePackIndex T Ts ≠ -1 then some (int32.wrap (tryTypePackIndex T Ts)) else none

/-- experimental/detail/enum.hpp:82-89 `operator ==`, `!=` on two enumeration values. -/
def eq (lhs rhs : Int) : Bool := decide (lhs = rhs)
@[inherit_doc eq] def ne (lhs rhs : Int) : Bool := !eq lhs rhs

/-- experimental/detail/enum.hpp:131-142 `operator ==` with `type_c<T>`, either way round. -/
def eqType (Ts : List Ty) (e : Int) (T : Ty) : Option Bool :=
  if tryTypePackIndex T Ts ≠ -1 then some (decide (int32.wrap (tryTypePackIndex T Ts) = toInt e)) else none

/-- experimental/detail/enum.hpp:143-154 `operator !=` with `type_c<T>`. -/
def neType (Ts : List Ty) (e : Int) (T : Ty) : Option Bool := (eqType Ts e T).map (!·)

/-- All elements of a list of constructs compile and return normally, or the first failure. -/
def collect : List (Option (Outcome Int)) → Option (Outcome (List Int))
  | [] => some (.ok [])
  | none :: _ => none
  | some x :: l => (collect l).map fun r => x.bind fun v => r.bind fun vs => .ok (v :: vs)

/-- experimental/detail/enum.hpp:115-129 `default_values`: every type converted. -/
def defaultValues (Ts : List Ty) : Option (Outcome (List Int)) := collect (Ts.map (fromType Ts))

/-- A `switch` over the enumeration value with the given types as case labels (the use documented in experimental/enum.hpp:141-146);
`none` if a label does not compile or two labels have the same value, `some none` if no label matches. -/
def switchOn (Ts : List Ty) (e : Int) (labels : List Ty) : Option (Option Ty) :=
  if (∀ T ∈ labels, (caseLabel Ts T).isSome) ∧ (labels.map (caseLabel Ts)).Nodup then
    some (labels.find? fun T => caseLabel Ts T = some e)
  else none

end Makeshift.TypeEnum
