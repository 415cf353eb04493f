import Verif.Model.Metadata
import Verif.Model.Serialize

/-!
# From reflected metadata to text conversion

Model of the functions which take the enum and flags tables from the reflector: `description_or_name_or_empty`, `make_enum_metadata`,
`make_flags_metadata` (detail/serialize.hpp:66-107, 206-263) and the functions of `string.hpp`.  `none`: the call does not compile.  The
tables are initialisers of `static constexpr` data members (detail/serialize.hpp:109-113, 265-269), hence a violated `gsl_Expects` or
`gsl_Assert` in them does not compile either.
-/

namespace Makeshift.Metadata

/-- Conversion of an available extracted string to `std::string_view`. -/
def svOf : Md → Option Str
  | .sv s => some s
  | _ => none

/-- An element of a `std::array<T, N>`. -/
def valOf (T : Nat) : Md → Option Int
  | .val t v => if t = T then some v else none
  | _ => none

/-- detail/serialize.hpp:66-75 `description_or_name_or_empty`. -/
def descriptionOrNameOrEmpty (md : Md) : Option Str :=
  (name md).bind fun n => (description md).bind fun d =>
  if d.isAvailable then svOf d
  else if n.isAvailable then svOf n
  else some []

/-- The arrays `values` and `value_names` (detail/serialize.hpp:93-95, 212-214), as a list of pairs.  They must both be available, and
of the same length `N` (105-106, 222-224). -/
def valueTable (env : Env) (T : Nat) : Option (List (Int × Str)) :=
  (available (values env T)).bind fun vs => (available (valueNames env T)).bind fun ns =>
  (vs.mapM (valOf T)).bind fun vs => (ns.mapM svOf).bind fun ns =>
  if vs.length = ns.length then some (vs.zip ns) else none

/-- The value of a constant expression, if it is one. -/
def constant {α : Type} : Outcome α → Option α
  | .ok a => some a
  | _ => none

/-- detail/serialize.hpp:109-113 `static_enum_metadata`. -/
def staticEnumMetadata (env : Env) (T : Nat) : Option (EnumMd Int) :=
  (valueTable env T).bind fun es => (descriptionOrNameOrEmpty (env.reflect T)).bind fun desc => constant (makeEnumMetadata desc es)

/-- detail/serialize.hpp:265-269 `static_flags_metadata`, for an enumeration whose underlying type has `w` bits. -/
def staticFlagsMetadata (w : Nat) (env : Env) (T : Nat) : Option (FlagsMd w) :=
  (valueTable env T).bind fun es => (descriptionOrNameOrEmpty (env.reflect T)).bind fun desc =>
  constant (makeFlagsMetadata desc (es.map fun e => (BitVec.ofInt w e.1, e.2)))

/-- string.hpp:25-30 `enum_to_string`. -/
def enumToStringOf (env : Env) (T : Nat) (value : Int) : Option (Outcome Str) := (staticEnumMetadata env T).map (enumToString value)

/-- string.hpp:32-37 `parse_enum`. -/
def parseEnumOf (env : Env) (T : Nat) (s : Str) : Option (Outcome Int) := (staticEnumMetadata env T).map (enumFromString 0 s)

/-- string.hpp:40-45 `flags_to_string`. -/
def flagsToStringOf (w : Nat) (env : Env) (T : Nat) (flags : BitVec w) : Option (Outcome Str) :=
  (staticFlagsMetadata w env T).map (flagsToString flags)

/-- string.hpp:47-54 `parse_flags`. -/
def parseFlagsOf (w : Nat) (env : Env) (T : Nat) (s : Str) : Option (Outcome (BitVec w)) :=
  (staticFlagsMetadata w env T).map fun md => parseFlags s md.toEnumMd

end Makeshift.Metadata
