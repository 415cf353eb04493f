import Verif.Model.Iomanip
import Verif.Model.Unchecked

/-!
# Text conversion of enums and flags with contract checks switched on or off

Model of the functions of `detail/serialize.hpp` which contain `gsl_Expects` or `gsl_Assert`, with the configuration of gsl-lite as a
parameter (see `Model/Unchecked.lean`).  All other functions are those of `Model/Serialize.lean` and `Model/Iomanip.lean`; `gsl_FailFast()`
in `enum_to_string` does not depend on the configuration.  The checks in tables are evaluated at compile time (110-113, 266-269); if they are
switched off, the tables are made all the same.
-/

namespace Makeshift.Unchecked

open Makeshift

/-- The name checks, serialize.hpp:97-101 and 216-220. -/
def checkNames (c : Checks) (forbidden : Str) : List Str → Outcome Unit
  | [] => .ok ()
  | name :: rest => do
    c.expects (!name.isEmpty)
    c.expects (findFirstOf name forbidden == none)
    checkNames c forbidden rest

/-- serialize.hpp:89-107 `make_enum_metadata`, with the simplification of `Makeshift.makeEnumMetadata`. -/
def makeEnumMetadata {V : Type} (c : Checks) (desc : Str) (entries : List (V × Str)) : Outcome (EnumMd V) := do
  checkNames c enumForbiddenChars (entries.map Prod.snd)
  return { description := desc, entries := entries }

/-- serialize.hpp:206-263 `make_flags_metadata`, with the simplification of `Makeshift.makeFlagsMetadata`. -/
def makeFlagsMetadata {w : Nat} (c : Checks) (desc : Str) (entries : List (BitVec w × Str)) : Outcome (FlagsMd w) := do
  checkNames c flagsForbiddenChars (entries.map Prod.snd)
  let st := entries.foldl flagsScanStep {}
  c.expects (st.allDefined == st.allIndividual)                                            -- 246
  let numIndividualNames := st.table.length
  let table := entries.foldl flagsRestStep st.table
  return { description := desc, entries := table, allDefinedFlags := st.allDefined,
           noneName := st.noneName, numIndividualNames := numIndividualNames }

/-- serialize.hpp:271-297 `flags_to_string`; string.hpp:40-45. -/
def flagsToString {w : Nat} (c : Checks) (flags : BitVec w) (md : FlagsMd w) : Outcome Str := do
  c.expects ((flags &&& ~~~md.allDefinedFlags) == 0#w)                                     -- 275
  if flags = 0#w then return md.noneName
  return flagsToStringLoop flags [] 0#w (md.entries.take md.numIndividualNames)

end Makeshift.Unchecked
