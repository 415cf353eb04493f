import Verif.Spec.Text

/-! # Specification vocabulary for flags (bit sets) -/

namespace Makeshift.Spec

/-- Exactly one bit is set. -/
def SingleBit {w : Nat} (v : BitVec w) : Prop := ∃ i, i < w ∧ ∀ j, v.getLsbD j = decide (j = i)

/-- Every bit of `a` is a bit of `b`. -/
def SubBits {w : Nat} (a b : BitVec w) : Prop := ∀ i, a.getLsbD i = true → b.getLsbD i = true

/-- The union of a list of bit sets. -/
def union {w : Nat} : List (BitVec w) → BitVec w
  | [] => 0#w
  | v :: vs => v ||| union vs

/-- `'+'` and `'|'`. -/
def isFlagDelim (c : CChar) : Bool := c == 43 || c == 124

/-- A missing last token is forgiven. -/
def dropEmptyLast (toks : List Str) : List Str := if toks.getLast? = some [] then toks.dropLast else toks

/-- The tokens of a flags expression. -/
def flagTokens (s : Str) : List Str := dropEmptyLast ((split isFlagDelim s).map strip)

/-- Meaning of a token list: the union of the named values, or the first token that is not a name. -/
def tokensValue {w : Nat} (table : List (BitVec w × Str)) : List Str → Except Str (BitVec w)
  | [] => .ok 0#w
  | t :: ts =>
    match lookup table t with
    | none => .error t
    | some v =>
      match tokensValue table ts with
      | .ok r => .ok (v ||| r)
      | .error e => .error e

/-- Names a `'+'`-delimited format can represent: non-empty, no delimiter, no surrounding whitespace. -/
def CleanFlagName (s : Str) : Prop := s ≠ [] ∧ (∀ c ∈ s, isFlagDelim c = false) ∧ Stripped s

end Makeshift.Spec
