import Verif.Spec.Variant

/-! Specification vocabulary for the laws of `variant_transform`. -/

namespace Makeshift.Spec

variable {Ty V : Type}

/-- All ways to pick one alternative of every argument, the alternative of the first argument varying fastest. -/
def combinations : List (List Ty) → List (List Ty)
  | [] => [[]]
  | Ts :: args => (combinations args).flatMap fun rest => Ts.map (· :: rest)

/-- `k` is the last position of `T` in the list. -/
def LastAt {A : Type} (l : List A) (T : A) (k : Nat) : Prop := l[k]? = some T ∧ ∀ m, k < m → l[m]? ≠ some T

/-- `R` lists the distinct elements of `l` ordered by their last positions. -/
def DistinctByLast {A : Type} (l R : List A) : Prop :=
  (∀ T, T ∈ R ↔ T ∈ l) ∧
  ∀ (i j : Nat) (S T : A) (k m : Nat), i < j → R[i]? = some S → R[j]? = some T → LastAt l S k → LastAt l T m → k < m

/-- The functor `[=](auto... xs) { return g(f(xs...)); }`. -/
def compose (g f : VFunctor Ty V) : VFunctor Ty V where
  resTy types := g.resTy [f.resTy types]
  run act := g.run [(f.resTy (act.map Prod.fst), f.run act)]

end Makeshift.Spec
