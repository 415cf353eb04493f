import Verif.Outcome

/-!
# Metadata reflection

Model of `metadata.hpp` and `detail/metadata.hpp`.

A metadata object, as returned by a reflector, is a tree `Md` of strings, values, base class designators, member pointers, arrays and
tuples.  Most decisions of the code depend on static types only, so each object has a type `MTy`.  Types are numbered.  The outer
`Option` of a result is `none` where the call does not compile; the C++ value `std::nullopt`, which stands for unavailable metadata,
is `Md.nullopt`.

Simplifications: a reflected type `T` is neither tuple-like nor convertible to `std::string_view`; `std::string_view` and
`char const*` are the only types convertible to `std::string_view`; `std::tuple` and `std::array` are the only tuple-like types;
conversions other than `char const*` to `std::string_view` and the identity are ill-formed; for `std::remove_const_t` see
`MetadataConst.lean`.
-/

namespace Makeshift

/-- Types of metadata objects. -/
inductive MTy where
  /-- `std::nullopt_t` -/
  | nullopt
  /-- `char const*` -/
  | cstr
  /-- `std::string_view` -/
  | sv
  /-- the type with number `id`: an enumeration, an arithmetic type, a class -/
  | ty (id : Nat)
  /-- `gsl::type_identity<U>` -/
  | typeId (cls : Nat)
  /-- `DT C::*` -/
  | memPtr (cls dt : Nat)
  /-- `std::array<R, N>` -/
  | arr (elem : MTy) (n : Nat)
  /-- `std::tuple<Ts...>` -/
  | tup (ts : List MTy)

/-- Metadata objects. -/
inductive Md where
  | nullopt
  | cstr (s : Str)
  | sv (s : Str)
  | val (ty : Nat) (v : Int)
  | typeId (cls : Nat)
  /-- the member with number `id` of the class -/
  | memPtr (cls dt id : Nat)
  | arr (elem : MTy) (es : List Md)
  | tup (es : List Md)

mutual
/-- `std::is_same_v` (decision procedure). -/
def MTy.same : MTy → MTy → Bool
  | .nullopt, .nullopt => true
  | .cstr, .cstr => true
  | .sv, .sv => true
  | .ty a, .ty b => a == b
  | .typeId a, .typeId b => a == b
  | .memPtr a b, .memPtr c d => a == c && b == d
  | .arr a n, .arr b m => MTy.same a b && n == m
  | .tup as, .tup bs => MTy.sameList as bs
  | _, _ => false
/-- The same for type lists. -/
def MTy.sameList : List MTy → List MTy → Bool
  | [], [] => true
  | a :: as, b :: bs => MTy.same a b && MTy.sameList as bs
  | _, _ => false
end

mutual
/-- The static type of a metadata object. -/
def Md.typeOf : Md → MTy
  | .nullopt => .nullopt
  | .cstr _ => .cstr
  | .sv _ => .sv
  | .val t _ => .ty t
  | .typeId c => .typeId c
  | .memPtr c d _ => .memPtr c d
  | .arr t es => .arr t es.length
  | .tup es => .tup (Md.typesOf es)
/-- The types of the elements of a tuple. -/
def Md.typesOf : List Md → List MTy
  | [] => []
  | e :: es => e.typeOf :: Md.typesOf es
end

/-- `std::tuple_element_t<Is, M>...` for a tuple-like `M`; `none` if `M` has no `std::tuple_size`. -/
def MTy.elems : MTy → Option (List MTy)
  | .arr t n => some (List.replicate n t)
  | .tup ts => some ts
  | _ => none

/-- `get<Is>(md)...`. -/
def Md.elems : Md → Option (List Md)
  | .arr _ es => some es
  | .tup es => some es
  | _ => none

/-- metadata.hpp:39-44 `is_available`: not `std::nullopt_t`. -/
def Md.isAvailable : Md → Bool
  | .nullopt => false
  | _ => true

namespace Metadata

/-- The program: the metadata of each type given by the reflector (detail/metadata.hpp:30-57), the `std::is_base_of` relation and
`std::is_class`.  Types are numbered such that a class comes after its base classes, as the language demands. -/
structure Env where
  reflect : Nat → Md
  isBaseOf : Nat → Nat → Bool
  isClass : Nat → Bool
  base_le : ∀ u t, isBaseOf u t = true → u ≤ t

/-- `std::is_convertible_v<M, std::string_view>` (detail/metadata.hpp:78-79). -/
def isStringLike : MTy → Bool
  | .cstr => true
  | .sv => true
  | _ => false

/-- detail/metadata.hpp:81-82 `is_value_array`. -/
def isValueArray (T : Nat) : MTy → Bool
  | .arr (.ty t) _ => t == T
  | _ => false

/-- detail/metadata.hpp:87-88 `is_base`. -/
def isBase (env : Env) (T : Nat) : MTy → Bool
  | .typeId u => env.isBaseOf u T
  | _ => false

/-- detail/metadata.hpp:106-107 `is_value`. -/
def isValue (T : Nat) : MTy → Bool
  | .ty t => t == T
  | _ => false

/-- detail/metadata.hpp:122-123 `is_member` (and 84-85 `is_member_pointer`). -/
def isMember (T : Nat) : MTy → Bool
  | .memPtr c _ => c == T
  | _ => false

/-- detail/metadata.hpp:90-94, 109-113, 125-129 `is_base_record`, `is_value_record`, `is_member_record`: non-empty tuples whose first
element satisfies the predicate. -/
def isRecord (p : MTy → Bool) (m : MTy) : Bool :=
  match m.elems with
  | some (t :: _) => p t
  | _ => false

/-- detail/metadata.hpp:96-104, 131-139 `is_base_record_tuple`, `is_base_tuple`, `is_member_record_tuple`, `is_member_tuple` and
115-116, 118: tuples all of whose elements satisfy the predicate. -/
def isTupleOf (p : MTy → Bool) (m : MTy) : Bool :=
  match m.elems with
  | some ts => ts.all p
  | none => false

/-- detail/metadata.hpp:115-119 `is_value_record_tuple`; the specialisation for arrays inspects the element type. -/
def isValueRecordTuple (T : Nat) (m : MTy) : Bool :=
  match m with
  | .arr r _ => isRecord (isValue T) r
  | m => isTupleOf (isRecord (isValue T)) m

/-- detail/metadata.hpp:140-153 `record_index_0_`, `record_index_1_`; `none` is `size_t(-1)`. -/
def recordIndexFrom (p : MTy → Bool) : List MTy → Nat → Nat → Option Nat
  | [], _, _ => none
  | t :: ts, i, occurrence =>
    if p t then
      if occurrence = 0 then some i else recordIndexFrom p ts (i + 1) (occurrence - 1)
    else recordIndexFrom p ts (i + 1) occurrence

/-- detail/metadata.hpp:154-157 `record_index`. -/
def recordIndex (p : MTy → Bool) (m : MTy) (occurrence : Nat) : Option Nat :=
  match m.elems with
  | some ts => recordIndexFrom p ts 0 occurrence
  | none => none

/-- detail/metadata.hpp:174-180 `promote`. -/
def promote : Md → Md
  | .cstr s => .sv s
  | m => m

/-- `get<I>(md)`. -/
def getElem (i : Nat) (m : Md) : Option Md := m.elems.bind fun es => es[i]?

/-- The implicit conversion to `V` in an initialiser; see the simplifications above. -/
def convertTo (V : MTy) (m : Md) : Option Md := if m.typeOf.same V then some m else none

/-- detail/metadata.hpp:182-194 `extract_column<V, I>`. -/
def extractColumn (V : MTy) (i : Nat) (arg : Md) : Option Md :=
  arg.elems.bind fun rs =>
    (rs.mapM fun r => (getElem i r).bind fun m => convertTo V (promote m)).map (.arr V)

/-- detail/metadata.hpp:196-209 `extract_column<V>(arg, index_sequence<Is...>)`: column index per record. -/
def extractColumnAt (V : MTy) (arg : Md) (js : List Nat) : Option Md :=
  arg.elems.bind fun rs =>
    ((rs.zip js).mapM fun rj => (getElem rj.2 rj.1).bind fun m => convertTo V (promote m)).map (.arr V)

/-- detail/metadata.hpp:211-224 `extract_heterogeneous_column<0>`.  An array does not match the parameter `TupleT<Ts...>`. -/
def extractHeterogeneousColumn0 : Md → Option Md
  | .tup rs => (rs.mapM fun r => (getElem 0 r).map promote).map .tup
  | _ => none

/-- detail/metadata.hpp:241-276 `extract_metadata`. -/
def extractMetadata (p : MTy → Bool) (occurrence : Nat) (md : Md) : Option Md :=
  match md with
  | .nullopt => some .nullopt
  | md =>
    if occurrence = 0 ∧ p md.typeOf = true then some (promote md)
    else match recordIndex p md.typeOf occurrence with
      | some i => (getElem i md).map promote
      | none => some .nullopt

/-- detail/metadata.hpp:278-310 `extract_bases`. -/
def extractBases (env : Env) (T : Nat) (md : Md) : Option Md :=
  (extractMetadata (isTupleOf (isRecord (isBase env T))) 0 md).bind fun brt =>
  if brt.isAvailable then extractHeterogeneousColumn0 brt
  else (extractMetadata (isTupleOf (isBase env T)) 0 md).bind fun bt =>
  if bt.isAvailable then some bt
  else (extractMetadata (isRecord (isBase env T)) 0 md).bind fun br =>
  if br.isAvailable then (getElem 0 br).map fun b => .tup [b]
  else (extractMetadata (isBase env T) 0 md).bind fun b =>
  if b.isAvailable then some (.tup [b])
  else if isBase env T md.typeOf then some (.tup [md])
  else if md.isAvailable && env.isClass T then some (.tup [])
  else some .nullopt

/-- detail/metadata.hpp:312-343 `extract_values`. -/
def extractValues (T : Nat) (md : Md) : Option Md :=
  (extractMetadata (isValueRecordTuple T) 0 md).bind fun vrt =>
  if vrt.isAvailable then extractColumn (.ty T) 0 vrt
  else (extractMetadata (isValueArray T) 0 md).bind fun va =>
  if va.isAvailable then some va
  else (extractMetadata (isRecord (isValue T)) 0 md).bind fun vr =>
  if vr.isAvailable then (getElem 0 vr).bind fun v => (convertTo (.ty T) v).map fun v => .arr (.ty T) [v]
  else (extractMetadata (isValue T) 0 md).bind fun v =>
  if v.isAvailable then (convertTo (.ty T) v).map fun v => .arr (.ty T) [v]
  else if isValue T md.typeOf then (convertTo (.ty T) md).map fun v => .arr (.ty T) [v]
  else if md.isAvailable then some (.arr (.ty T) [])
  else some .nullopt

/-- detail/metadata.hpp:345-377 `extract_members`. -/
def extractMembers (env : Env) (T : Nat) (md : Md) : Option Md :=
  (extractMetadata (isTupleOf (isRecord (isMember T))) 0 md).bind fun mrt =>
  if mrt.isAvailable then extractHeterogeneousColumn0 mrt
  else (extractMetadata (isTupleOf (isMember T)) 0 md).bind fun mt =>
  if mt.isAvailable then some mt
  else (extractMetadata (isRecord (isMember T)) 0 md).bind fun mr =>
  if mr.isAvailable then (getElem 0 mr).map fun m => .tup [m]
  else (extractMetadata (isMember T) 0 md).bind fun m =>
  if m.isAvailable then some (.tup [m])
  else if isMember T md.typeOf then some (.tup [md])
  else if md.isAvailable && env.isClass T then some (.tup [])
  else some .nullopt

/-- `record_indices` (detail/metadata.hpp:159-164) together with `any_index_invalid` (391-396): the column indices, if all are
valid. -/
def recordIndices (p : MTy → Bool) (occurrence : Nat) : List MTy → Option (List Nat)
  | [] => some []
  | t :: ts => (recordIndex p t occurrence).bind fun j => (recordIndices p occurrence ts).map (j :: ·)

/-- detail/metadata.hpp:379-389 and 398-408 `try_extract_column`: the overloads for arrays and for other tuple-like types. -/
def tryExtractColumn (V : MTy) (p : MTy → Bool) (occurrence : Nat) (arg : Md) : Option Md :=
  match arg with
  | .arr r es =>
    match recordIndex p r occurrence with
    | some j => extractColumn V j (.arr r es)
    | none => some .nullopt
  | arg => arg.typeOf.elems.bind fun ts =>
    match recordIndices p occurrence ts with
    | some js => extractColumnAt V arg js
    | none => some .nullopt

/-- detail/metadata.hpp:422-449 `extract_value_metadata`; metadata.hpp:81-107 `extract_for_values`. -/
def extractValueMetadata (T : Nat) (V : MTy) (p : MTy → Bool) (occurrence : Nat) (md : Md) : Option Md :=
  (extractMetadata (isValueRecordTuple T) 0 md).bind fun vrt =>
  if vrt.isAvailable then tryExtractColumn V p occurrence vrt
  else if md.isAvailable then
    (extractValues T md).bind fun vs => if vs.isAvailable then some .nullopt else some (.arr V [])
  else some .nullopt

/-- detail/metadata.hpp:451-479 `extract_member_metadata`; metadata.hpp:109-135 `extract_for_exclusive_members`. -/
def extractMemberMetadata (env : Env) (T : Nat) (V : MTy) (p : MTy → Bool) (occurrence : Nat) (md : Md) : Option Md :=
  (extractMetadata (isTupleOf (isRecord (isMember T))) 0 md).bind fun mrt =>
  if mrt.isAvailable then tryExtractColumn V p occurrence mrt
  else if md.isAvailable && env.isClass T then
    (extractMembers env T md).bind fun ms => if ms.isAvailable then some .nullopt else some (.arr V [])
  else some .nullopt

/-- `typename decltype(bases)::type...`. -/
def baseClass : Md → Option Nat
  | .typeId u => some u
  | _ => none

/-- detail/metadata.hpp:496-520 `all_members`.  A class which lists itself as a base leads to unlimited template recursion, which
is ill-formed; by `Env.base_le` there is no other way to recurse without limit. -/
def allMembers (env : Env) (T : Nat) : Option Md :=
  (extractMembers env T (env.reflect T)).bind fun direct =>
  if direct.isAvailable then
    (extractBases env T (env.reflect T)).bind fun bases =>
    bases.elems.bind fun bs =>
    (bs.mapM fun b => (baseClass b).bind fun u => if _h : u < T then (allMembers env u).bind Md.elems else none).bind fun baseTuples =>
    direct.elems.map fun ds => .tup (baseTuples.flatten ++ ds)
  else some .nullopt
termination_by T

/-- detail/metadata.hpp:521-548 `extract_all_member_metadata`; metadata.hpp:137-160 `extract_for_members`. -/
def extractAllMemberMetadata (env : Env) (T : Nat) (V : MTy) (p : MTy → Bool) (occurrence : Nat) : Option Md :=
  (extractMemberMetadata env T V p occurrence (env.reflect T)).bind fun direct =>
  if direct.isAvailable then
    (extractBases env T (env.reflect T)).bind fun bases =>
    bases.elems.bind fun bs =>
    (bs.mapM fun b => (baseClass b).bind fun u =>
      (extractMemberMetadata env u V p occurrence (env.reflect u)).bind Md.elems).bind fun baseArrays =>
    direct.elems.map fun ds => .arr V (baseArrays.flatten ++ ds)
  else some .nullopt

/-- metadata.hpp:54-66 `extract<T, Occurrence, PredT>`. -/
def extract (md : Md) (p : MTy → Bool) (occurrence : Nat) : Option Md := extractMetadata p occurrence md

/-- metadata.hpp:67-79 `extract<T, Occurrence, V>`, which returns a `V`. -/
def extractTyped (md : Md) (V : MTy) (occurrence : Nat) : Option Md :=
  (extractMetadata (fun t => t.same V) occurrence md).bind (convertTo V)

/-- metadata.hpp:163-168 `name`. -/
def name (md : Md) : Option Md := extract md isStringLike 0

/-- metadata.hpp:170-175 `description`. -/
def description (md : Md) : Option Md := extract md isStringLike 1

/-- metadata.hpp:177-182 `bases`. -/
def bases (env : Env) (T : Nat) : Option Md := extractBases env T (env.reflect T)

/-- metadata.hpp:184-190 `values`, detail/metadata.hpp:550-554 `value_store`. -/
def values (env : Env) (T : Nat) : Option Md := extractValues T (env.reflect T)

/-- metadata.hpp:192-198 `value_names`, detail/metadata.hpp:555-561 `value_name_store`. -/
def valueNames (env : Env) (T : Nat) : Option Md := extractValueMetadata T .sv isStringLike 0 (env.reflect T)

/-- metadata.hpp:200-205 `value_descriptions`. -/
def valueDescriptions (env : Env) (T : Nat) : Option Md := extractValueMetadata T .sv isStringLike 1 (env.reflect T)

/-- metadata.hpp:207-213 `exclusive_members`, detail/metadata.hpp:562-566 `exclusive_member_store`. -/
def exclusiveMembers (env : Env) (T : Nat) : Option Md := extractMembers env T (env.reflect T)

/-- metadata.hpp:215-221 `exclusive_member_names`, detail/metadata.hpp:567-573 `exclusive_member_name_store`. -/
def exclusiveMemberNames (env : Env) (T : Nat) : Option Md := extractMemberMetadata env T .sv isStringLike 0 (env.reflect T)

/-- metadata.hpp:223-228 `exclusive_member_descriptions`. -/
def exclusiveMemberDescriptions (env : Env) (T : Nat) : Option Md := extractMemberMetadata env T .sv isStringLike 1 (env.reflect T)

/-- metadata.hpp:230-243 `members`, detail/metadata.hpp:574-578 `member_store`. -/
def members (env : Env) (T : Nat) : Option Md := allMembers env T

/-- metadata.hpp:245-251 `member_names`, detail/metadata.hpp:579-584 `member_name_store`. -/
def memberNames (env : Env) (T : Nat) : Option Md := extractAllMemberMetadata env T .sv isStringLike 0

/-- metadata.hpp:253-258 `member_descriptions`. -/
def memberDescriptions (env : Env) (T : Nat) : Option Md := extractAllMemberMetadata env T .sv isStringLike 1

/-- detail/metadata.hpp:482-493 `search_index`; the loop, with index `i` and an equality test. -/
def searchIndexFrom (eq : Md → Bool) : List Md → Nat → Int
  | [], _ => -1
  | e :: es, i => if eq e then i else searchIndexFrom eq es (i + 1)

/-- `values[i] == value` for values of one type. -/
def isVal (v : Int) : Md → Bool
  | .val _ v' => v' == v
  | _ => false

/-- `names[i] == name` for strings. -/
def isName (n : Str) : Md → Bool
  | .sv s => s == n
  | _ => false

/-- The elements of an available array; `static_assert(metadata::is_available(...))`. -/
def available (m : Option Md) : Option (List Md) := m.bind fun m => if m.isAvailable then m.elems else none

/-- metadata.hpp:261-268 `search_value_index`. -/
def searchValueIndex (env : Env) (T : Nat) (v : Int) : Option Int :=
  (available (values env T)).map fun vs => searchIndexFrom (isVal v) vs 0

/-- metadata.hpp:279-286 `search_value_index_by_name`. -/
def searchValueIndexByName (env : Env) (T : Nat) (n : Str) : Option Int :=
  (available (valueNames env T)).map fun ns => searchIndexFrom (isName n) ns 0

/-- metadata.hpp:296-303 `search_exclusive_member_index_by_name`. -/
def searchExclusiveMemberIndexByName (env : Env) (T : Nat) (n : Str) : Option Int :=
  (available (exclusiveMemberNames env T)).map fun ns => searchIndexFrom (isName n) ns 0

/-- metadata.hpp:313-320 `search_member_index_by_name`. -/
def searchMemberIndexByName (env : Env) (T : Nat) (n : Str) : Option Int :=
  (available (memberNames env T)).map fun ns => searchIndexFrom (isName n) ns 0

/-- metadata.hpp:269-276, 287-294, 304-311, 321-328: the `find_` function made from a `search_` function. -/
def findFromSearch (i : Int) : Outcome Int := if i ≥ 0 then .ok i else .failFast

/-- metadata.hpp:269-276 `find_value_index`. -/
def findValueIndex (env : Env) (T : Nat) (v : Int) : Option (Outcome Int) := (searchValueIndex env T v).map findFromSearch

/-- metadata.hpp:287-294 `find_value_index_by_name`. -/
def findValueIndexByName (env : Env) (T : Nat) (n : Str) : Option (Outcome Int) :=
  (searchValueIndexByName env T n).map findFromSearch

/-- metadata.hpp:304-311 `find_exclusive_member_index_by_name`. -/
def findExclusiveMemberIndexByName (env : Env) (T : Nat) (n : Str) : Option (Outcome Int) :=
  (searchExclusiveMemberIndexByName env T n).map findFromSearch

/-- metadata.hpp:321-328 `find_member_index_by_name`. -/
def findMemberIndexByName (env : Env) (T : Nat) (n : Str) : Option (Outcome Int) :=
  (searchMemberIndexByName env T n).map findFromSearch

/-- metadata.hpp:331-344 `search_exclusive_member_by_name`, with a compile-time name. -/
def searchExclusiveMemberByName (env : Env) (T : Nat) (n : Str) : Option Md :=
  (available (exclusiveMembers env T)).bind fun ms =>
  (searchExclusiveMemberIndexByName env T n).bind fun i => if i ≥ 0 then ms[i.toNat]? else some .nullopt

/-- metadata.hpp:345-352 `find_exclusive_member_by_name`. -/
def findExclusiveMemberByName (env : Env) (T : Nat) (n : Str) : Option Md :=
  (searchExclusiveMemberByName env T n).bind fun m => if m.isAvailable then some m else none

/-- metadata.hpp:354-367 `search_member_by_name`. -/
def searchMemberByName (env : Env) (T : Nat) (n : Str) : Option Md :=
  (available (members env T)).bind fun ms =>
  (searchMemberIndexByName env T n).bind fun i => if i ≥ 0 then ms[i.toNat]? else some .nullopt

/-- metadata.hpp:368-375 `find_member_by_name`. -/
def findMemberByName (env : Env) (T : Nat) (n : Str) : Option Md :=
  (searchMemberByName env T n).bind fun m => if m.isAvailable then some m else none

end Metadata

end Makeshift
