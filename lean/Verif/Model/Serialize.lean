import Verif.Model.Strings

/-!
# Enum and flags serialisation

Model of `detail/serialize.hpp` lines 66-367 and of the wrappers in `string.hpp`.

Simplification used throughout: the two arrays `values_` and `names_` of equal length `N` are one list of
pairs.
-/

namespace Makeshift

/-- serialize.hpp:78 `enum_forbidden_chars`. -/
def enumForbiddenChars : Str := str "+| \t\n\r,[]{}():/\\"

/-- serialize.hpp:188 `flags_forbidden_chars`. -/
def flagsForbiddenChars : Str := str ",[]{}():/\\"

/-- serialize.hpp:79 `enum_forbidden_char_set`. -/
def enumForbiddenCharSet : CharBitset := CharBitset.ofChars enumForbiddenChars

/-- serialize.hpp:189 `flags_forbidden_char_set`. -/
def flagsForbiddenCharSet : CharBitset := CharBitset.ofChars flagsForbiddenChars

/-- serialize.hpp:81-87 `enum_metadata`. -/
structure EnumMd (V : Type) where
  description : Str
  entries : List (V × Str)

/-- The name checks, serialize.hpp:97-101 and 216-220. -/
def checkNames (forbidden : Str) : List Str → Outcome Unit
  | [] => .ok ()
  | name :: rest => do
    Outcome.expects (!name.isEmpty)
    Outcome.expects (findFirstOf name forbidden == none)
    checkNames forbidden rest

/-- serialize.hpp:89-107 `make_enum_metadata`.  `desc` is the result of `description_or_name_or_empty`
(66-75).  Simplification: the availability check (95) is not modelled, values and names are given. -/
def makeEnumMetadata {V : Type} (desc : Str) (entries : List (V × Str)) : Outcome (EnumMd V) := do
  checkNames enumForbiddenChars (entries.map Prod.snd)
  return { description := desc, entries := entries }

/-- Loop of serialize.hpp:119-126. -/
def enumToStringLoop {V : Type} [DecidableEq V] (value : V) : List (V × Str) → Outcome Str
  | [] => .failFast
  | (v, name) :: rest => if value = v then .ok name else enumToStringLoop value rest

/-- serialize.hpp:115-127 `enum_to_string`; string.hpp:25-30. -/
def enumToString {V : Type} [DecidableEq V] (value : V) (md : EnumMd V) : Outcome Str :=
  enumToStringLoop value md.entries

/-- Loop of serialize.hpp:132-140. The in/out parameter `value` is passed and returned. -/
def tryEnumFromStringLoop {V : Type} (value : V) (s : Str) : List (V × Str) → V × Int
  | [] => (value, -1)
  | (v, name) :: rest => if s = name then (v, 0) else tryEnumFromStringLoop value s rest

/-- serialize.hpp:128-141 `try_enum_from_string`. -/
def tryEnumFromString {V : Type} (value : V) (s : Str) (md : EnumMd V) : V × Int :=
  tryEnumFromStringLoop value s md.entries

/-- The loop appending quoted names, serialize.hpp:160-171. -/
def appendNames (first : Bool) (msg : Str) : List Str → Str
  | [] => msg
  | name :: rest =>
    let msg := if !first then msg ++ str ", " else msg
    appendNames false (msg ++ str "'" ++ name ++ str "'") rest

/-- serialize.hpp:142-174 `enum_from_string_error`. -/
def enumFromStringError {V : Type} (s : Str) (md : EnumMd V) (flags : Bool := false) : Str :=
  let msg : Str := []
  let msg := if !md.description.isEmpty then msg ++ md.description ++ str ": " else msg
  let msg := msg ++ str "unknown value '"
  let msg := msg ++ s
  let msg := msg ++ str "'; supported values: "
  let msg := if flags then msg ++ str "a '+'-delimited subset of " else msg
  let msg := msg ++ str "{ "
  let msg := appendNames true msg (md.entries.map Prod.snd)
  msg ++ str " }"

/-- serialize.hpp:175-185 `enum_from_string`; string.hpp:32-37 `parse_enum`.  `zero` is `T{ }`. -/
def enumFromString {V : Type} (zero : V) (s : Str) (md : EnumMd V) : Outcome V :=
  let r := tryEnumFromString zero (trim s) md
  if r.2 ≠ 0 then .throw (enumFromStringError s md) else .ok r.1

/-- serialize.hpp:191-196 `is_power_of_2` at an unsigned type of width `w` (the call sites cast to the
unsigned underlying type, 234 and 252). -/
def isPowerOf2 {w : Nat} (value : BitVec w) : Bool :=
  decide (0#w < value) && (value &&& (value - 1#w)) == 0#w

/-- serialize.hpp:198-204 `flags_metadata`.  The enum type is represented by the bit pattern of its values. -/
structure FlagsMd (w : Nat) extends EnumMd (BitVec w) where
  allDefinedFlags : BitVec w
  noneName : Str
  numIndividualNames : Nat

/-- Locals of the first loop of `make_flags_metadata`, serialize.hpp:223-228. The arrays `flags`/`names`
filled up to `j` are the list `table`. -/
structure FlagsScan (w : Nat) where
  table : List (BitVec w × Str) := []
  allDefined : BitVec w := 0#w
  allIndividual : BitVec w := 0#w
  noneName : Str := []

/-- Body of the first loop, serialize.hpp:231-244. -/
def flagsScanStep {w : Nat} (st : FlagsScan w) (e : BitVec w × Str) : FlagsScan w :=
  let st := { st with allDefined := st.allDefined ||| e.1 }
  if isPowerOf2 e.1 then
    { st with allIndividual := st.allIndividual ||| e.1, table := st.table ++ [e] }
  else if e.1 = 0#w ∧ st.noneName.isEmpty then
    { st with noneName := e.2 }
  else st

/-- Body of the second loop, serialize.hpp:250-257. -/
def flagsRestStep {w : Nat} (table : List (BitVec w × Str)) (e : BitVec w × Str) : List (BitVec w × Str) :=
  if !isPowerOf2 e.1 then table ++ [e] else table

/-- serialize.hpp:206-263 `make_flags_metadata` (same simplification as `makeEnumMetadata`). -/
def makeFlagsMetadata {w : Nat} (desc : Str) (entries : List (BitVec w × Str)) : Outcome (FlagsMd w) := do
  checkNames flagsForbiddenChars (entries.map Prod.snd)
  let st := entries.foldl flagsScanStep {}
  Outcome.expects (st.allDefined == st.allIndividual)
  let numIndividualNames := st.table.length
  let table := entries.foldl flagsRestStep st.table
  return { description := desc, entries := table, allDefinedFlags := st.allDefined,
           noneName := st.noneName, numIndividualNames := numIndividualNames }

/-- Loop of serialize.hpp:283-295; arguments `result`, `flagsSet`. -/
def flagsToStringLoop {w : Nat} (flags : BitVec w) (result : Str) (flagsSet : BitVec w) :
    List (BitVec w × Str) → Str
  | [] => result
  | (flag, name) :: rest =>
    if (flags &&& flag) ≠ 0#w ∧ (flagsSet &&& flag) = 0#w then
      let result := if !result.isEmpty then result ++ str "+" else result
      flagsToStringLoop flags (result ++ name) (flagsSet ||| flag) rest
    else flagsToStringLoop flags result flagsSet rest

/-- serialize.hpp:271-297 `flags_to_string`; string.hpp:40-45. -/
def flagsToString {w : Nat} (flags : BitVec w) (md : FlagsMd w) : Outcome Str := do
  Outcome.expects ((flags &&& ~~~md.allDefinedFlags) == 0#w)
  if flags = 0#w then return md.noneName
  return flagsToStringLoop flags [] 0#w (md.entries.take md.numIndividualNames)

/-- Inner loop of `flags_from_string`, serialize.hpp:346-355: `some result'` if found. -/
def flagsTokenLoop {w : Nat} (token : Str) (result : BitVec w) : List (BitVec w × Str) → Option (BitVec w)
  | [] => none
  | (v, name) :: rest => if token = name then some (result ||| v) else flagsTokenLoop token result rest

theorem findFirstOf_lt {s chars : Str} {pos : Nat} (h : findFirstOf s chars = some pos) : pos < s.length := by
  have := List.findIdx?_eq_some_iff_findIdx_eq.mp h
  exact this.1

/-- The while loop of serialize.hpp:331-364.  `.error token` is the not-found exit (356-363). -/
def flagsFromStringLoop {w : Nat} (table : List (BitVec w × Str)) (result : BitVec w) (s : Str) :
    Except Str (BitVec w) :=
  if hs : s = [] then .ok result
  else
    match hf : findFirstOf s (str "+|") with
    | some pos =>
      let token := trim (substr s 0 pos)
      match flagsTokenLoop token result table with
      | some result' => flagsFromStringLoop table result' (s.drop (pos + 1))
      | none => .error token
    | none =>
      let token := trim s
      if token = [] then .ok result
      else
        match flagsTokenLoop token result table with
        | some result' => flagsFromStringLoop table result' []
        | none => .error token
  termination_by s.length
  decreasing_by
    · have := findFirstOf_lt hf
      simp; omega
    · have : s.length ≠ 0 := by simpa using hs
      simp; omega

/-- serialize.hpp:326-367 `flags_from_string` with `raise = false`: returns the in/out parameter and the code. -/
def flagsFromStringNoRaise {w : Nat} (value : BitVec w) (s : Str) (md : EnumMd (BitVec w)) : BitVec w × Int :=
  match flagsFromStringLoop md.entries 0#w s with
  | .ok result => (result, 0)
  | .error _ => (value, -1)

/-- serialize.hpp:326-367 `flags_from_string` with `raise = true`, as called by string.hpp:47-54 `parse_flags`
(whose local `result` is uninitialised until assigned).  The call at 360 passes three arguments and therefore
uses the `enum_metadata` overload of `enum_from_string_error` (142-174). -/
def parseFlags {w : Nat} (s : Str) (md : EnumMd (BitVec w)) : Outcome (BitVec w) :=
  match flagsFromStringLoop md.entries 0#w s with
  | .ok result => .ok result
  | .error token => .throw (enumFromStringError token md true)

end Makeshift
