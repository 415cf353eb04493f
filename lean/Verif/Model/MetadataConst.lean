import Verif.Model.Metadata

/-!
# Metadata of const-qualified types

Model of the functions of `metadata.hpp` for a possibly const-qualified type `T`.  Some of them ask the reflector for the metadata of
`T` as it is (`get_metadata<T, ReflectorT>()`), others for that of `std::remove_const_t<T>`; all of them extract by the unqualified type.

Simplification: `volatile` is left out.
-/

namespace Makeshift.MetadataConst

open Metadata

/-- A program, with the metadata which the reflector returns for `gsl::type_identity<T const>`. -/
structure CEnv extends Env where
  reflectConst : Nat → Md

/-- A type `T` (`isConst = false`) or `T const`. -/
structure QType where
  isConst : Bool
  base : Nat

/-- detail/metadata.hpp:166-172 `get_metadata<T, ReflectorT>()`: the reflector is called with `gsl::type_identity<T>`. -/
def getMetadata (env : CEnv) (t : QType) : Md := if t.isConst then env.reflectConst t.base else env.reflect t.base

/-- metadata.hpp:27 `metadata_v<T>`: with `std::remove_cv_t<T>`. -/
def metadataV (env : CEnv) (t : QType) : Md := getMetadata env ⟨false, t.base⟩

/-- metadata.hpp:34-39, 47-48 `is_available_for<T>()`, `is_available_for_v<T>`. -/
def isAvailableFor (env : CEnv) (t : QType) : Bool := (metadataV env t).isAvailable

/-- metadata.hpp:54-66 `extract<T, Occurrence, PredT>()`. -/
def extractOf (env : CEnv) (t : QType) (p : MTy → Bool) (occurrence : Nat) : Option Md :=
  extractMetadata p occurrence (getMetadata env t)

/-- metadata.hpp:163-168 `name<T>()`. -/
def nameOf (env : CEnv) (t : QType) : Option Md := extractOf env t isStringLike 0

/-- metadata.hpp:170-175 `description<T>()`. -/
def descriptionOf (env : CEnv) (t : QType) : Option Md := extractOf env t isStringLike 1

/-- metadata.hpp:177-182 `bases<T>()`. -/
def basesOf (env : CEnv) (t : QType) : Option Md := extractBases env.toEnv t.base (getMetadata env t)

/-- metadata.hpp:81-107 `extract_for_values<T, V>()`. -/
def extractForValues (env : CEnv) (t : QType) (V : MTy) (p : MTy → Bool) (occurrence : Nat) : Option Md :=
  extractValueMetadata t.base V p occurrence (getMetadata env t)

/-- metadata.hpp:109-135 `extract_for_exclusive_members<T, V>()`. -/
def extractForExclusiveMembers (env : CEnv) (t : QType) (V : MTy) (p : MTy → Bool) (occurrence : Nat) : Option Md :=
  extractMemberMetadata env.toEnv t.base V p occurrence (getMetadata env t)

/-- metadata.hpp:137-160 `extract_for_members<T, V>()`: `get_metadata` is called inside, after `std::remove_const_t`
(detail/metadata.hpp:521-526). -/
def extractForMembers (env : CEnv) (t : QType) (V : MTy) (p : MTy → Bool) (occurrence : Nat) : Option Md :=
  extractAllMemberMetadata env.toEnv t.base V p occurrence

/-- metadata.hpp:200-205 `value_descriptions<T>()`. -/
def valueDescriptionsOf (env : CEnv) (t : QType) : Option Md := extractForValues env t .sv isStringLike 1

/-- metadata.hpp:223-228 `exclusive_member_descriptions<T>()`. -/
def exclusiveMemberDescriptionsOf (env : CEnv) (t : QType) : Option Md := extractForExclusiveMembers env t .sv isStringLike 1

/-- metadata.hpp:253-258 `member_descriptions<T>()`. -/
def memberDescriptionsOf (env : CEnv) (t : QType) : Option Md := extractForMembers env t .sv isStringLike 1

/-- metadata.hpp:184-190 `values<T>()`: `value_store<std::remove_const_t<T>, ReflectorT>`, whose initialiser calls `get_metadata`
(detail/metadata.hpp:550-554). -/
def valuesOf (env : CEnv) (t : QType) : Option Md := extractValues t.base (getMetadata env ⟨false, t.base⟩)

/-- metadata.hpp:192-198 `value_names<T>()`, with `value_name_store<std::remove_const_t<T>, ReflectorT>`. -/
def valueNamesOf (env : CEnv) (t : QType) : Option Md :=
  extractValueMetadata t.base .sv isStringLike 0 (getMetadata env ⟨false, t.base⟩)

/-- metadata.hpp:207-213 `exclusive_members<T>()`, with `exclusive_member_store<std::remove_const_t<T>, ReflectorT>`. -/
def exclusiveMembersOf (env : CEnv) (t : QType) : Option Md := extractMembers env.toEnv t.base (getMetadata env ⟨false, t.base⟩)

/-- metadata.hpp:215-221 `exclusive_member_names<T>()`, with `exclusive_member_name_store<std::remove_const_t<T>, ReflectorT>`. -/
def exclusiveMemberNamesOf (env : CEnv) (t : QType) : Option Md :=
  extractMemberMetadata env.toEnv t.base .sv isStringLike 0 (getMetadata env ⟨false, t.base⟩)

/-- metadata.hpp:230-243 `members<T>()`, with `member_store<TupleT, std::remove_const_t<T>, ReflectorT>`. -/
def membersOf (env : CEnv) (t : QType) : Option Md := allMembers env.toEnv t.base

/-- metadata.hpp:245-251 `member_names<T>()`, with `member_name_store<std::remove_const_t<T>, ReflectorT>`. -/
def memberNamesOf (env : CEnv) (t : QType) : Option Md := extractAllMemberMetadata env.toEnv t.base .sv isStringLike 0

end Makeshift.MetadataConst
