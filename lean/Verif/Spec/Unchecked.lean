import Verif.Spec.Zip

/-! Specification vocabulary for algorithms without contract checks. -/

namespace Makeshift.Unchecked.Spec

open Makeshift Makeshift.Spec

variable {α : Type}

/-- The length `L` decides how often the functor is called: it is a size known at compile time; or, if there is none, the size which
one of the ranges reports; or, if none reports a size, the length of the first range. -/
def Decides (rs : List (Rng α)) (L : Nat) : Prop :=
  (∃ r ∈ rs, r.size = .static L) ∨
  ((∀ r ∈ rs, ∀ n, r.size = .static n → n = -1) ∧ ∃ r ∈ rs, r.size = .dyn L) ∨
  ((∀ r ∈ rs, r.size = .static (-1)) ∧
    ∃ before r after, rs = before ++ r :: after ∧ (∀ q ∈ before, ¬ IsReal q) ∧ IsReal r ∧ r.elems.length = L)

/-- Every range has at least `n` elements. -/
def AtLeast (rs : List (Rng α)) (n : Nat) : Prop := ∀ r ∈ rs, IsReal r → n ≤ r.elems.length

/-- No two sizes known at compile time differ (otherwise the program does not compile). -/
def StaticSizesAgree (rs : List (Rng α)) : Prop :=
  ∀ r ∈ rs, ∀ r' ∈ rs, ∀ n m : Nat, r.size = .static n → r'.size = .static m → n = m

end Makeshift.Unchecked.Spec
