import Verif.Outcome

/-!
# Specification vocabulary for text

Independent of the model: whitespace, stripping, joining, splitting, first lookup in a table.
-/

namespace Makeshift.Spec

/-- Space, tab, line feed, carriage return. -/
def isWs (c : CChar) : Bool := c == 32 || c == 9 || c == 10 || c == 13

/-- Every character is whitespace. -/
def AllWs (s : Str) : Prop := ∀ c ∈ s, isWs c = true

/-- The string neither starts nor ends with whitespace. -/
def Stripped (s : Str) : Prop := (∀ c, s.head? = some c → isWs c = false) ∧ (∀ c, s.getLast? = some c → isWs c = false)

/-- `t` is `s` without its surrounding whitespace. -/
def IsStripOf (t s : Str) : Prop := ∃ pre post, s = pre ++ t ++ post ∧ AllWs pre ∧ AllWs post ∧ Stripped t

/-- Remove leading and trailing whitespace. -/
def strip (s : Str) : Str := ((s.dropWhile isWs).reverse.dropWhile isWs).reverse

/-- Concatenate with a separator between consecutive items. -/
def join (sep : Str) : List Str → Str
  | [] => []
  | [x] => x
  | x :: y :: r => x ++ sep ++ join sep (y :: r)

/-- Split at every character satisfying `p`; the pieces between delimiters, in order (never empty). -/
def split (p : CChar → Bool) : Str → List Str
  | [] => [[]]
  | c :: cs =>
    if p c then [] :: split p cs
    else match split p cs with
      | [] => [[c]]
      | t :: ts => (c :: t) :: ts

/-- The value of the first table entry with the given name. -/
def lookup {V : Type} (table : List (V × Str)) (name : Str) : Option V :=
  (table.find? (fun e => e.2 == name)).map Prod.fst

/-- The name of the first table entry with the given value. -/
def nameOf {V : Type} [DecidableEq V] (table : List (V × Str)) (v : V) : Option Str :=
  (table.find? (fun e => e.1 == v)).map Prod.snd

/-- A quoted name. -/
def quote (s : Str) : Str := str "'" ++ s ++ str "'"

/-- The error message for an unknown enum/flags name: optional description, offending text, supported names. -/
def unknownValueMessage (desc text : Str) (names : List Str) (flags : Bool) : Str :=
  (if desc = [] then [] else desc ++ str ": ")
    ++ str "unknown value '" ++ text ++ str "'; supported values: "
    ++ (if flags then str "a '+'-delimited subset of " else [])
    ++ str "{ " ++ join (str ", ") (names.map quote) ++ str " }"

/-- Characters an enum name must not contain: flag delimiters, whitespace, punctuation. -/
def enumReserved : Str := str "+|" ++ str " \t\n\r" ++ str ",[]{}():/\\"

/-- Characters a flag name must not contain. -/
def flagsReserved : Str := str ",[]{}():/\\"

end Makeshift.Spec
