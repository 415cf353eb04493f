import Verif.Model.MachineInt

/-!
# `csize` and `cssize`

Model of constval.hpp:420-460 and detail/constval.hpp:337-361.
-/

namespace Makeshift.Csize

/-- The argument, as far as overload resolution distinguishes it. -/
inductive Arg where
  /-- a C array of `n` elements -/
  | cArray (n : Nat)
  /-- a class for which `std::tuple_size` is `n` -/
  | tupleLike (n : Nat)
  /-- another class with a member function `size()`, its result type and result -/
  | container (ty : IntTy) (size : Int)
  /-- anything else -/
  | other
  deriving DecidableEq, Repr

/-- The result: a constval or a value, of the given integer type. -/
inductive Res where
  /-- `std::integral_constant<ty, v>` -/
  | constant (ty : IntTy) (v : Int)
  /-- a value of type `ty` -/
  | value (ty : IntTy) (v : Int)
  deriving DecidableEq, Repr

/-- `std::integral_constant<ty, v>`: the value must not be narrowed ([temp.arg.nontype]); `none` is ill-formed. -/
def integralConstant (ty : IntTy) (v : Int) : Option Res := if ty.InRange v then some (.constant ty v) else none

/-- constval.hpp:420-437, detail/constval.hpp:337-348 `csize`. -/
def csize : Arg → Option Res
  | .cArray n => integralConstant .sizeT n
  | .tupleLike n => integralConstant .sizeT n
  | .container ty s => some (.value ty s)
  | .other => none

/-- `std::common_type_t<std::ptrdiff_t, std::make_signed_t<T>>`: a signed type at least as wide as both. -/
def signedSizeType (ty : IntTy) : IntTy := ⟨max 64 ty.bits, true⟩

/-- constval.hpp:440-460, detail/constval.hpp:350-361 `cssize`. -/
def cssize : Arg → Option Res
  | .cArray n => integralConstant .ptrdiffT n
  | .tupleLike n => integralConstant .ptrdiffT n
  | .container ty s => some (.value (signedSizeType ty) ((signedSizeType ty).wrap s))
  | .other => none

end Makeshift.Csize
