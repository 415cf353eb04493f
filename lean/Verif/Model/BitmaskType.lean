import Verif.Model.MachineInt

/-!
# Which types the flag predicates accept

Model of `is_bitmask` (type_traits.hpp:156-167, detail/type_traits.hpp:206-219) and of the declarations and static assertions of the
flag predicates (experimental/enum.hpp:25-134).  What they compute is in Model/EnumFlags.lean.  Types are not cv-qualified: template
arguments are deduced from parameters passed by value.
-/

namespace Makeshift.BitmaskType

/-- The operators of a bitmask type. -/
inductive Op where
  | compl | or | and | xor | orAssign | andAssign | xorAssign
  deriving DecidableEq, Repr

/-- All of them. -/
def Op.all : List Op := [.compl, .or, .and, .xor, .orAssign, .andAssign, .xorAssign]

/-- The type of an expression in relation to `T`: `T` or `T const` by value, a reference to `T` or `T const`, an integer type other than
`T` by value, or something else. -/
inductive ResTy where
  | value (const : Bool)
  | lref (const : Bool)
  | rref (const : Bool)
  | integer (t : IntTy)
  | other
  deriving DecidableEq, Repr

/-- A type `T`: integers, `bool`, enumerations and classes; the latter may have overloaded operators, for which the declared return type
is given.  Classes are described by whether `==`, `!=` yield something convertible to `bool` and whether `T{ }` is well-formed. -/
inductive BTy where
  | integer (t : IntTy)
  | boolean
  | enum (isScoped : Bool) (underlying : IntTy) (overload : Op → Option ResTy)
  | cls (overload : Op → Option ResTy) (comparable defaultConstructible : Bool)

/-- Whether the operator assigns. -/
def Op.assigns : Op → Bool
  | .orAssign | .andAssign | .xorAssign => true
  | _ => false

/-- The built-in operators ([expr.unary.op], [expr.bit.and], [expr.ass]): operands are promoted; assignments convert back, which for
enumerations is not possible implicitly. -/
def builtin : BTy → Op → Option ResTy
  | .integer t, op =>
    if op.assigns then some (.lref false)
    else if t.promote = t then some (.value false) else some (.integer t.promote)
  | .boolean, op => if op.assigns then some (.lref false) else some (.integer ⟨32, true⟩)
  | .enum isScoped u _, op => if isScoped || op.assigns then none else some (.integer u.promote)
  | .cls _ _ _, _ => none

/-- `decltype` of an expression with the operator, for operands of type `T const&` and, on the left of an assignment, `T&`.  A call of a
function which returns `T const` has type `T` unless `T` is a class ([expr.type]). -/
def opType (t : BTy) (op : Op) : Option ResTy :=
  match t with
  | .enum _ _ overload =>
    match overload op with
    | some (.value _) => some (.value false)
    | some r => some r
    | none => builtin t op
  | .cls overload _ _ => overload op
  | _ => builtin t op

/-- detail/type_traits.hpp:206-219 `is_bitmask`: all seven expressions are well-formed (line 219, `can_instantiate_`) and have types `T`
and `T&` (line 207). -/
def isBitmask (t : BTy) : Bool :=
  Op.all.all (fun op => (opType t op).isSome) &&
  Op.all.all fun op => opType t op == some (if op.assigns then .lref false else .value false)

/-- `decltype` of the same expressions for operands which are lvalues of type `T`, not const; `lvalues` are the results of the overloaded operators which
overload resolution chooses for them. -/
def opTypeLvalue (t : BTy) (lvalues : Op → Option ResTy) (op : Op) : Option ResTy :=
  match t with
  | .enum isScoped u _ => opType (.enum isScoped u lvalues) op
  | .cls _ c d => opType (.cls lvalues c d) op
  | _ => opType t op

/-- concepts.hpp:42-53 concept `bitmask`: `m` is an lvalue, and `{ expr } -> std::same_as<T>` looks at `decltype((expr))`. -/
def bitmaskConcept (t : BTy) (lvalues : Op → Option ResTy) : Bool :=
  Op.all.all fun op =>
    match opTypeLvalue t lvalues op with
    | some r => r == (if op.assigns then .lref false else .value false)
    | none => false

/-- `std::underlying_type_t<T>` is well-formed. -/
def hasUnderlyingType : BTy → Bool
  | .enum _ _ _ => true
  | _ => false

/-- `T == T` and `T != T` are well-formed. -/
def comparable : BTy → Bool
  | .cls _ c _ => c
  | _ => true

/-- `T{ }` is well-formed. -/
def defaultConstructible : BTy → Bool
  | .cls _ _ d => d
  | _ => true

/-- experimental/enum.hpp:88-95 `has_flag(haystack, needle)`: line 93 names `std::underlying_type_t<EnumT>`; gsl-lite, which
is not part of the repository, also instantiates preconditions which are not checked, unless configured not to. -/
def hasFlagCompiles (t : BTy) : Bool := isBitmask t && hasUnderlyingType t && comparable t

/-- experimental/enum.hpp:102-108, 115-121 `has_any_flag_of`, `has_no_flag_of`. -/
def hasAnyFlagOfCompiles (t : BTy) : Bool := isBitmask t && comparable t && defaultConstructible t

/-- experimental/enum.hpp:128-134 `has_all_flags_of`. -/
def hasAllFlagsOfCompiles (t : BTy) : Bool := isBitmask t && comparable t

/-- [temp.param] types of non-type template parameters in C++17: no class types. -/
def isTemplateParameterType : BTy → Bool
  | .cls _ _ _ => false
  | _ => true

/-- experimental/enum.hpp:25-36 `has_flag<needle>(haystack)`, apart from the condition on the value of `needle`. -/
def hasFlagStaticCompiles (t : BTy) : Bool := isTemplateParameterType t && isBitmask t && hasUnderlyingType t && comparable t

/-- experimental/enum.hpp:43-66 `has_any_flag_of<needles>(haystack)`, `has_no_flag_of<needles>(haystack)`. -/
def hasAnyFlagOfStaticCompiles (t : BTy) : Bool := isTemplateParameterType t && isBitmask t && comparable t && defaultConstructible t

/-- experimental/enum.hpp:73-81 `has_all_flags_of<needles>(haystack)`. -/
def hasAllFlagsOfStaticCompiles (t : BTy) : Bool := isTemplateParameterType t && isBitmask t && comparable t

end Makeshift.BitmaskType
