import Verif.Outcome

/-!
# Flag predicates

Model of the functions at the beginning of `experimental/enum.hpp`.  A flags value is the bit pattern of its underlying type, of any
width `w`.  The bitmask operators come from gsl-lite and act on the underlying values.
-/

namespace Makeshift.Flags

variable {w : Nat}

/-- experimental/detail/enum.hpp:27-32 `is_flag_power_of_2`; the comparison depends on the signedness of the underlying type.  (For a
type narrower than `int` the subtraction is done in `int`; as it is done for positive values only, the result is the same.) -/
def isFlagPowerOf2 (signed : Bool) (value : BitVec w) : Bool :=
  (if signed then decide (value.toInt > 0) else decide (value.toNat > 0)) && (value &&& (value - 1#w)) == 0#w

/-- experimental/enum.hpp:88-95 `has_flag(haystack, needle)`; the audit-level precondition is checked only if `audit` is set. -/
def hasFlag (audit signed : Bool) (haystack needle : BitVec w) : Outcome Bool :=
  (Outcome.expects (!audit || isFlagPowerOf2 signed needle)).bind fun _ => .ok ((haystack &&& needle) == needle)

/-- experimental/enum.hpp:27-36 `has_flag<needle>(haystack)`; `none` is ill-formed. -/
def hasFlagStatic (signed : Bool) (needle haystack : BitVec w) : Option Bool :=
  if isFlagPowerOf2 signed needle then some ((haystack &&& needle) == needle) else none

/-- experimental/enum.hpp:102-108 and 43-51 `has_any_flag_of`. -/
def hasAnyFlagOf (haystack needles : BitVec w) : Bool := (haystack &&& needles) != 0#w

/-- experimental/enum.hpp:115-121 and 58-66 `has_no_flag_of`. -/
def hasNoFlagOf (haystack needles : BitVec w) : Bool := (haystack &&& needles) == 0#w

/-- experimental/enum.hpp:128-134 and 73-81 `has_all_flags_of`. -/
def hasAllFlagsOf (haystack needles : BitVec w) : Bool := (haystack &&& needles) == needles

end Makeshift.Flags
