import Verif.Spec.Flags

/-! # Specification: how many comparisons a search from the front takes -/

namespace Makeshift.Spec

/-- A search from the front for the first element satisfying `p` looks at the elements up to this one, or at all. -/
def searched {α : Type} (p : α → Bool) (l : List α) : Nat := min (l.findIdx p + 1) l.length

/-- Comparisons with names for a list of tokens: every token is searched, up to the first one which is unknown. -/
def tokensSearched {w : Nat} (table : List (BitVec w × Str)) : List Str → Nat
  | [] => 0
  | t :: ts =>
    searched (fun e => e.2 == t) table + if ∃ e ∈ table, e.2 = t then tokensSearched table ts else 0

end Makeshift.Spec
