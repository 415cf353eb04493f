import Verif.Model.Ranges
import Verif.Spec.Zip
import Verif.Spec.Search

/-! Specification vocabulary for `range` and `index_range`. -/

namespace Makeshift.Spec

/-- Taking a step with an index iterator. -/
def Move.takeIndex : Move → IndexIt → Outcome IndexIt
  | inc, it => it.inc
  | dec, it => it.dec
  | add d, it => it.add d
  | sub d, it => it.sub d

/-- Taking steps one after the other. -/
def walkIndex : List Move → IndexIt → Outcome IndexIt
  | [], it => .ok it
  | m :: ms, it => (m.takeIndex it).bind (walkIndex ms)

/-- No step from `p` leaves `[lo, hi]`. -/
def StaysBetween (lo hi : Int) : List Move → Int → Prop
  | [], p => lo ≤ p ∧ p ≤ hi
  | m :: ms, p => lo ≤ p ∧ p ≤ hi ∧ StaysBetween lo hi ms (p + m.shift)

end Makeshift.Spec
