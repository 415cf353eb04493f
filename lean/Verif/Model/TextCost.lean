import Verif.Model.Serialize

/-!
# Conversions between values and text with a record of the work done

The functions of `Model/Serialize.lean` again, this time with the number of values or names compared, and for flags with the number of
characters looked at in search of delimiters and whitespace.  Same simplifications as in `Model/Serialize.lean`.
-/

namespace Makeshift.TextCost

/-- serialize.hpp:115-127 `enum_to_string`, with the number of comparisons `value == md.values_[i]` (line 121). -/
def enumToString {V : Type} [DecidableEq V] (value : V) : List (V × Str) → Outcome Str × Nat
  | [] => (.failFast, 0)
  | (v, name) :: rest =>
    if value = v then (.ok name, 1)
    else ((enumToString value rest).1, (enumToString value rest).2 + 1)

/-- serialize.hpp:128-141 `try_enum_from_string`, with the number of comparisons `str == md.names_[i]` (line 134). -/
def tryEnumFromString {V : Type} (value : V) (s : Str) : List (V × Str) → (V × Int) × Nat
  | [] => ((value, -1), 0)
  | (v, name) :: rest =>
    if s = name then ((v, 0), 1)
    else ((tryEnumFromString value s rest).1, (tryEnumFromString value s rest).2 + 1)

/-- serialize.hpp:175-185 `enum_from_string`; string.hpp:32-37 `parse_enum`. -/
def enumFromString {V : Type} (zero : V) (s : Str) (md : EnumMd V) : Outcome V × Nat :=
  let r := tryEnumFromString zero (trim s) md.entries
  (if r.1.2 ≠ 0 then .throw (enumFromStringError s md) else .ok r.1.1, r.2)

/-- serialize.hpp:271-297 `flags_to_string`, the loop (lines 283-295) with the number of flags tested. -/
def flagsToStringLoop {w : Nat} (flags : BitVec w) (result : Str) (flagsSet : BitVec w) (tested : Nat) :
    List (BitVec w × Str) → Str × Nat
  | [] => (result, tested)
  | (flag, name) :: rest =>
    if (flags &&& flag) ≠ 0#w ∧ (flagsSet &&& flag) = 0#w then
      let result := if !result.isEmpty then result ++ str "+" else result
      flagsToStringLoop flags (result ++ name) (flagsSet ||| flag) (tested + 1) rest
    else flagsToStringLoop flags result flagsSet (tested + 1) rest

/-- serialize.hpp:271-297 `flags_to_string`. -/
def flagsToString {w : Nat} (flags : BitVec w) (md : FlagsMd w) : Outcome Str × Nat :=
  if (flags &&& ~~~md.allDefinedFlags) == 0#w then
    if flags = 0#w then (.ok md.noneName, 0)
    else
      let r := flagsToStringLoop flags [] 0#w 0 (md.entries.take md.numIndividualNames)
      (.ok r.1, r.2)
  else (.failFast, 0)

/-- Number of characters which `find_first_of()`, `find_first_not_of()` or, for the reversed text, `find_last_not_of()` look at. -/
def looked (s : Str) : Option Nat → Nat
  | some pos => pos + 1
  | none => s.length

/-- serialize.hpp:53-63 `trim`: the number of characters looked at. -/
def trimLooked (s : Str) : Nat :=
  match findFirstNotOf s whitespaceChars with
  | none => s.length
  | some first => first + 1 + looked s (findFirstNotOf s.reverse whitespaceChars)

/-- Inner loop of `flags_from_string`, serialize.hpp:346-355, with the number of comparisons `token == md.names_[i]`. -/
def flagsTokenLoop {w : Nat} (token : Str) (result : BitVec w) : List (BitVec w × Str) → Option (BitVec w) × Nat
  | [] => (none, 0)
  | (v, name) :: rest =>
    if token = name then (some (result ||| v), 1)
    else ((flagsTokenLoop token result rest).1, (flagsTokenLoop token result rest).2 + 1)

/-- The result of `flags_from_string`, the number of comparisons with names, and the number of characters looked at by `find_first_of()` and `trim()`. -/
structure Parsed (w : Nat) where
  result : Except Str (BitVec w)
  compared : Nat
  looked : Nat

/-- What has been done before. -/
def Parsed.after {w : Nat} (compared looked : Nat) (p : Parsed w) : Parsed w := ⟨p.result, compared + p.compared, looked + p.looked⟩

/-- The while loop of `flags_from_string`, serialize.hpp:331-364. -/
def flagsFromStringLoop {w : Nat} (table : List (BitVec w × Str)) (result : BitVec w) (s : Str) : Parsed w :=
  if hs : s = [] then ⟨.ok result, 0, 0⟩
  else
    match hf : findFirstOf s (str "+|") with
    | some pos =>
      let part := substr s 0 pos
      let found := flagsTokenLoop (trim part) result table
      match found.1 with
      | some result' => (flagsFromStringLoop table result' (s.drop (pos + 1))).after found.2 (pos + 1 + trimLooked part)
      | none => ⟨.error (trim part), found.2, pos + 1 + trimLooked part⟩
    | none =>
      if trim s = [] then ⟨.ok result, 0, s.length + trimLooked s⟩
      else
        let found := flagsTokenLoop (trim s) result table
        match found.1 with
        | some result' => (flagsFromStringLoop table result' []).after found.2 (s.length + trimLooked s)
        | none => ⟨.error (trim s), found.2, s.length + trimLooked s⟩
  termination_by s.length
  decreasing_by
    · have := findFirstOf_lt hf
      simp; omega
    · have : s.length ≠ 0 := by simpa using hs
      simp; omega

end Makeshift.TextCost
