import Verif.Spec.Zip
import Verif.Spec.TupleAlgo

/-! Specification vocabulary for comparing algorithms for ranges with those for tuples. -/

namespace Makeshift.Spec

variable {α : Type}

/-- The same argument, as a tuple and as a range: both have the same elements, or both are `range_index`. -/
inductive SameArg : TArg α → Rng α → Prop
  | elements {r : Rng α} : r.mode ≠ .rangeIndex → SameArg (.tuple r.elems) r
  | rangeIndex {r : Rng α} : r.mode = .rangeIndex → SameArg .rangeIndex r

/-- The same functor argument. -/
inductive SameVal : TVal α → Arg α → Prop
  | elem (a : α) : SameVal (.elem a) (.elem a)
  | index (i : Nat) : SameVal (.index i) (.idx i)

/-- The same functor arguments. -/
def SameCall : List (TVal α) → List (Arg α) → Prop := List.Forall₂ SameVal

end Makeshift.Spec
