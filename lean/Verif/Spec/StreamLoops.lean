import Mathlib.Data.List.Forall2
import Verif.Model.StreamLoops
import Verif.Spec.Stream
import Verif.Spec.Flags

/-! # Texts of documents -/

namespace Makeshift.StreamLoops.Spec

open Makeshift.Spec

/-- The text does not begin with a character which formatted input skips. -/
def NoLead (e : Str) : Prop := ∀ c, e.head? = some c → c ∉ skippable

/-- `t` is a text for the value: enums by their names, flags by any expression with that meaning, pairs as `a:b`, lists as `[a,b,c]`; with whitespace
wherever it does not separate the characters of a name. -/
def IsText : (s : Schema) → Val s → Str → Prop
  | .enum md, v, t => ∃ a n b, t = a ++ n ++ b ∧ AllWs a ∧ AllWs b ∧ n ≠ [] ∧ NoLead n ∧ (∀ c ∈ n, c ∉ enumReserved) ∧ lookup md.entries n = some v
  | .flags _ md, v, t => ∃ a e, t = a ++ e ∧ AllWs a ∧ NoLead e ∧ (∀ c ∈ e, c ∉ flagsReserved) ∧ tokensValue md.entries (flagTokens e) = .ok v
  | .pair s u, v, t => ∃ x y, t = x ++ str ":" ++ y ∧ IsText s v.1 x ∧ IsText u v.2 y
  | .list s, vs, t => ∃ a body b, t = a ++ str "[" ++ body ++ str "]" ++ b ∧ AllWs a ∧ AllWs b ∧
      ((vs = ([] : List (Val s)) ∧ AllWs body) ∨
        (vs ≠ ([] : List (Val s)) ∧ (∃ c ∈ body, c ∉ skippable) ∧ ∃ ts, List.Forall₂ (IsText s) vs ts ∧ body = join (str ",") ts))

/-- The metadata can be used for documents: it is accepted by the library, names are distinct and do not begin with a character which is skipped, and names of
flags can be told apart in a flags expression. -/
def Usable : Schema → Prop
  | .enum md => (∃ desc, makeEnumMetadata desc md.entries = .ok md) ∧ (md.entries.map Prod.snd).Nodup ∧ ∀ n ∈ md.entries.map Prod.snd, NoLead n
  | .flags _ md => ∃ desc entries, makeFlagsMetadata desc entries = .ok md ∧ (entries.map Prod.snd).Nodup ∧
      (∀ n ∈ entries.map Prod.snd, CleanFlagName n) ∧ ∀ n ∈ entries.map Prod.snd, NoLead n
  | .pair s t => Usable s ∧ Usable t
  | .list s => Usable s

/-- A list of one element which is the empty set of flags and has no name. -/
def SoleUnnamed : (s : Schema) → List (Val s) → Prop
  | .flags w md, vs => nameOf md.entries 0#w = none ∧ vs = [(0#w : BitVec w)]
  | _, _ => False

/-- The enum values are listed in the metadata, the flags are made of listed ones, and no list consists of a single empty set of flags without a name. -/
def Writable : (s : Schema) → Val s → Prop
  | .enum md, v => (v : Int) ∈ md.entries.map Prod.fst
  | .flags _ md, v => SubBits v (union (md.entries.map Prod.fst))
  | .pair s t, v => Writable s v.1 ∧ Writable t v.2
  | .list s, vs => (∀ v, List.Mem v vs → Writable s v) ∧ ¬ SoleUnnamed s vs

/-- `content` begins with the names of `vs`, and then either ends or goes on with something which is not a name; `rest` is what follows that. -/
inductive Leading {V : Type} (entries : List (V × Str)) : Str → List V → Str → Prop
  /-- the first token is not a name (or there is none) -/
  | stop {content skipped token rest : Str} : TokenSplit enumReserved content skipped token rest → (token = [] ∨ lookup entries token = none) →
      Leading entries content [] rest
  /-- the last token is a name -/
  | last {content skipped token : Str} {v : V} : TokenSplit enumReserved content skipped token [] → token ≠ [] → lookup entries token = some v →
      Leading entries content [v] []
  /-- the first token is a name -/
  | more {content skipped token rest rest' : Str} {v : V} {vs : List V} : TokenSplit enumReserved content skipped token rest → token ≠ [] →
      lookup entries token = some v → rest ≠ [] → Leading entries rest vs rest' → Leading entries content (v :: vs) rest'

end Makeshift.StreamLoops.Spec
