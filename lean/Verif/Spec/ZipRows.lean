import Verif.Spec.Zip
import Verif.Model.RangeObjects

/-! Specification vocabulary for elements of zipped ranges. -/

namespace Makeshift.Spec

open RangeObjects

/-- The objects of all ranges. -/
def objects (rs : List (Rng Nat)) : List Nat := rs.flatMap fun r => if r.mode = .rangeIndex then [] else r.elems

/-- The tuple at position `k` has the values which the tuple at position `from_ k` had before, for all ranges, and no other object has changed. -/
def TuplesMoved {V : Type} (rs : List (Rng Nat)) (m m' : Mem V) (from_ : Nat → Nat) : Prop :=
  (∀ r ∈ rs, IsReal r → ∀ k l l', r.elems[k]? = some l → r.elems[from_ k]? = some l' → m' l = m l') ∧
  ∀ l, l ∉ objects rs → m' l = m l

end Makeshift.Spec
