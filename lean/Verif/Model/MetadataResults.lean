import Verif.Model.Metadata

/-!
# Result types of the metadata queries

Model of the return types in `metadata.hpp` and `detail/metadata.hpp`: which queries return objects, which objects are const, and which
intermediate results are references to the metadata object, a temporary of the calling function.

`return std::nullopt;` in a function with return type `decltype(auto)` makes the type `std::nullopt_t const`, which is the declared type of
`std::nullopt`; likewise `return store::value;`, where `store::value` is a static constexpr member.  `return f(...);` has the return type
of `f`.
-/

namespace Makeshift.MetadataResults

open Metadata

/-- The type of a call: `T`, `T const`, or `T const&` for the type `T` of the object. -/
inductive Ret where
  | val | constVal | ref
  deriving DecidableEq, Repr

/-- A function with return type `auto` returns an object. -/
def auto (_ : Ret) : Ret := .val

/-- detail/metadata.hpp:174-180 `promote`: the parameter is a reference. -/
def promoteRet : Md → Ret
  | .cstr _ => .val
  | _ => .ref

/-- detail/metadata.hpp:262-276 `extract_metadata`; `extract_metadata_<I>::invoke` (241-260) returns `auto` or `std::nullopt_t`. -/
def extractMetadataRet (p : MTy → Bool) (occurrence : Nat) (md : Md) : Ret :=
  match md with
  | .nullopt => .constVal
  | md => if occurrence = 0 ∧ p md.typeOf = true then promoteRet md else .val

/-- The conditions in lines 282, 286, ... of detail/metadata.hpp; they use `std::decay_t`. -/
def found (p : MTy → Bool) (md : Md) : Bool :=
  match extractMetadata p 0 md with
  | some m => m.isAvailable
  | none => false

/-- detail/metadata.hpp:278-310 `extract_bases`. -/
def extractBasesRet (env : Env) (T : Nat) (md : Md) : Ret :=
  if found (isTupleOf (isRecord (isBase env T))) md then .val                                   -- 284: returns `auto`
  else if found (isTupleOf (isBase env T)) md then extractMetadataRet (isTupleOf (isBase env T)) 0 md     -- 288
  else if found (isRecord (isBase env T)) md then .val                                          -- 293
  else if found (isBase env T) md then .val                                                     -- 297
  else if isBase env T md.typeOf then .val                                                      -- 301
  else if md.isAvailable && env.isClass T then .val                                             -- 307
  else .constVal                                                                                -- 309

/-- detail/metadata.hpp:312-343 `extract_values`. -/
def extractValuesRet (T : Nat) (md : Md) : Ret :=
  if found (isValueRecordTuple T) md then .val                                                  -- 318: returns `auto`
  else if found (isValueArray T) md then extractMetadataRet (isValueArray T) 0 md               -- 322
  else if found (isRecord (isValue T)) md then .val                                             -- 327
  else if found (isValue T) md then .val                                                        -- 331
  else if isValue T md.typeOf then .val                                                         -- 335
  else if md.isAvailable then .val                                                              -- 340
  else .constVal                                                                                -- 342

/-- detail/metadata.hpp:345-377 `extract_members`. -/
def extractMembersRet (env : Env) (T : Nat) (md : Md) : Ret :=
  if found (isTupleOf (isRecord (isMember T))) md then .val                                     -- 351: returns `auto`
  else if found (isTupleOf (isMember T)) md then extractMetadataRet (isTupleOf (isMember T)) 0 md         -- 355
  else if found (isRecord (isMember T)) md then .val                                            -- 360
  else if found (isMember T) md then .val                                                       -- 364
  else if isMember T md.typeOf then .val                                                        -- 368
  else if md.isAvailable && env.isClass T then .val                                             -- 374
  else .constVal                                                                                -- 376

/-- detail/metadata.hpp:379-389 and 398-408 `try_extract_column`; `extract_column` (182-209) returns `auto`. -/
def tryExtractColumnRet (p : MTy → Bool) (occurrence : Nat) (arg : Md) : Ret :=
  match arg with
  | .arr r _ => if (recordIndex p r occurrence).isSome then .val else .constVal
  | arg =>
    match arg.typeOf.elems with
    | some ts => if (recordIndices p occurrence ts).isSome then .val else .constVal
    | none => .constVal

/-- detail/metadata.hpp:422-449 `extract_value_metadata`.  Line 437 compares `decltype(extract_values<T>(md))`, which is never
`std::nullopt_t`, because the result is const if it is not available. -/
def extractValueMetadataRet (T : Nat) (p : MTy → Bool) (occurrence : Nat) (md : Md) : Ret :=
  if found (isValueRecordTuple T) md then
    match extractMetadata (isValueRecordTuple T) 0 md with
    | some vrt => tryExtractColumnRet p occurrence vrt
    | none => .constVal
  else .constVal                                                                                -- 445, 448

/-- detail/metadata.hpp:451-479 `extract_member_metadata`; likewise. -/
def extractMemberMetadataRet (T : Nat) (p : MTy → Bool) (occurrence : Nat) (md : Md) : Ret :=
  if found (isTupleOf (isRecord (isMember T))) md then
    match extractMetadata (isTupleOf (isRecord (isMember T))) 0 md with
    | some mrt => tryExtractColumnRet p occurrence mrt
    | none => .constVal
  else .constVal

/-- detail/metadata.hpp:521-548 `extract_all_member_metadata`: the lambda function passed to `apply_impl` returns `auto`. -/
def extractAllMemberMetadataRet (env : Env) (T : Nat) (V : MTy) (p : MTy → Bool) (occurrence : Nat) : Ret :=
  match extractMemberMetadata env T V p occurrence (env.reflect T) with
  | some direct => if direct.isAvailable then .val else .constVal
  | none => .constVal

/-- `decltype(auto)` with `return store::value;`. -/
def storeRet : Ret := .constVal

/-- The queries of metadata.hpp. -/
inductive Query where
  | extract (p : MTy → Bool) (occurrence : Nat)
  | extractTyped (V : MTy) (occurrence : Nat)
  | extractForValues (V : MTy) (p : MTy → Bool) (occurrence : Nat)
  | extractForExclusiveMembers (V : MTy) (p : MTy → Bool) (occurrence : Nat)
  | extractForMembers (V : MTy) (p : MTy → Bool) (occurrence : Nat)
  | name | description | bases
  | values | valueNames | valueDescriptions
  | exclusiveMembers | exclusiveMemberNames | exclusiveMemberDescriptions
  | members | memberNames | memberDescriptions

/-- The object which a query for type `T` yields (Model/Metadata.lean). -/
def result (env : Env) (T : Nat) : Query → Option Md
  | .extract p n => Metadata.extract (env.reflect T) p n
  | .extractTyped V n => Metadata.extractTyped (env.reflect T) V n
  | .extractForValues V p n => extractValueMetadata T V p n (env.reflect T)
  | .extractForExclusiveMembers V p n => extractMemberMetadata env T V p n (env.reflect T)
  | .extractForMembers V p n => extractAllMemberMetadata env T V p n
  | .name => Metadata.name (env.reflect T)
  | .description => Metadata.description (env.reflect T)
  | .bases => Metadata.bases env T
  | .values => Metadata.values env T
  | .valueNames => Metadata.valueNames env T
  | .valueDescriptions => Metadata.valueDescriptions env T
  | .exclusiveMembers => Metadata.exclusiveMembers env T
  | .exclusiveMemberNames => Metadata.exclusiveMemberNames env T
  | .exclusiveMemberDescriptions => Metadata.exclusiveMemberDescriptions env T
  | .members => Metadata.members env T
  | .memberNames => Metadata.memberNames env T
  | .memberDescriptions => Metadata.memberDescriptions env T

/-- The type of the call: metadata.hpp:53-258. -/
def ret (env : Env) (T : Nat) : Query → Ret
  | .extract p n => auto (extractMetadataRet p n (env.reflect T))                               -- 53-66
  | .extractTyped _ _ => .val                                                                   -- 67-79: returns `V`
  | .extractForValues _ p n => extractValueMetadataRet T p n (env.reflect T)                    -- 81-107: `decltype(auto)`
  | .extractForExclusiveMembers _ p n => extractMemberMetadataRet T p n (env.reflect T)         -- 109-135
  | .extractForMembers V p n => extractAllMemberMetadataRet env T V p n                         -- 137-160
  | .name => auto .val                                                                          -- 163-168
  | .description => auto .val                                                                   -- 170-175
  | .bases => auto (extractBasesRet env T (env.reflect T))                                      -- 177-182
  | .values => storeRet                                                                         -- 184-190
  | .valueNames => storeRet                                                                     -- 192-198
  | .valueDescriptions => auto (extractValueMetadataRet T isStringLike 1 (env.reflect T))       -- 200-205
  | .exclusiveMembers => storeRet                                                               -- 207-213
  | .exclusiveMemberNames => storeRet                                                           -- 215-221
  | .exclusiveMemberDescriptions => auto (extractMemberMetadataRet T isStringLike 1 (env.reflect T))      -- 223-228
  | .members => storeRet                                                                        -- 230-243
  | .memberNames => auto storeRet                                                               -- 245-251
  | .memberDescriptions => auto (extractAllMemberMetadataRet env T .sv isStringLike 1)          -- 253-258

/-- metadata.hpp:49-50 `is_available_v<decltype(query)>`: whether the type is different from `std::nullopt_t`. -/
def isAvailableV (r : Ret) (m : Md) : Bool :=
  match r, m with
  | .val, .nullopt => false
  | _, _ => true

/-- `T` as deduced for a parameter of type `T const&`. -/
def deduceConstRef : Ret → Ret
  | .val => .val
  | .constVal => .val
  | .ref => .val

/-- metadata.hpp:40-45 `is_available(query)`. -/
def isAvailable (r : Ret) (m : Md) : Bool := isAvailableV (deduceConstRef r) m

end Makeshift.MetadataResults
