import Verif.Spec.Metadata
import Verif.Spec.Text
import Verif.Spec.Flags

/-!
# What a declared table of values means for text conversion

A record names its value by its first string.
-/

namespace Makeshift.Spec

/-- The name a record gives to its value. -/
def recordName (r : Int × List Md) : Option Str := (stringsOf r.2).head?

/-- All records have a name which is not empty and contains none of the given characters. -/
def ValidNames (reserved : Str) (rs : List (Int × List Md)) : Prop :=
  ∀ r ∈ rs, ∃ n, recordName r = some n ∧ n ≠ [] ∧ ∀ c ∈ n, c ∉ reserved

/-- `r` is the first record which satisfies `p`. -/
def FirstRecord (rs : List (Int × List Md)) (p : Int × List Md → Prop) (r : Int × List Md) : Prop :=
  ∃ pre post, rs = pre ++ r :: post ∧ p r ∧ ∀ x ∈ pre, ¬p x

/-- The heading of messages: the second string of the metadata if there is one, else the first, else nothing. -/
def heading : List Str → Str
  | [] => []
  | [n] => n
  | _ :: d :: _ => d

/-- The order of the records in a flags table with values of `w` bits: records of a single bit first, otherwise as declared. -/
def FlagOrder (w : Nat) (rs ord : List (Int × List Md)) : Prop :=
  ∃ single rest, ord = single ++ rest ∧ single.Sublist rs ∧ rest.Sublist rs ∧ ord.length = rs.length ∧
    (∀ r ∈ single, SingleBit (BitVec.ofInt w r.1)) ∧ ∀ r ∈ rest, ¬SingleBit (BitVec.ofInt w r.1)

/-- Every record has a name, and these are the names in order. -/
def NamedBy (rs : List (Int × List Md)) (names : List Str) : Prop := List.Forall₂ (fun r n => recordName r = some n) rs names

end Makeshift.Spec
