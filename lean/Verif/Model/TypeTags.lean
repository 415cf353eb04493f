import Verif.Model.Constval

/-!
# Type tags

experimental/utility.hpp and experimental/detail/utility.hpp.  Types are numbered; `type_c<T>` is an object of type `CT.typeTag`.  The conversion
of a tag to a type enumeration (utility.hpp:38-46) is modelled in Model/TypeEnum.lean, `any_sink` in Model/SinkOverload.lean.  `any_source`
(utility.hpp:93-99) is not modelled: its conversion operator has no `return` statement, so that evaluating it is undefined.
-/

namespace Makeshift

namespace TypeTags

/-- experimental/utility.hpp:105-107 `type_c<T>` as an argument of `constval_transform` etc. -/
def typeC (t : Nat) : Constval.HArg := .obj (.typeTag t)

/-- experimental/utility.hpp:59-64 `type_c<T1> == type_c<T2>`, an object of type `std::is_same<T1, T2>`; `bool` is type number `b`. -/
def eqTags (b t u : Nat) : CT := .isSame b t u

/-- experimental/utility.hpp:65-70 `type_c<T1> != type_c<T2>`, an object of type `std::integral_constant<bool, ...>`. -/
def neTags (b t u : Nat) : CT := .integralConstant b (if t = u then 0 else 1)

end TypeTags

end Makeshift
