import Verif.Spec.ZipRows
import Verif.Spec.RowPrograms
import Verif.Model.ZipPrograms

/-! Specification vocabulary for programs which work on the elements of zipped ranges. -/

namespace Makeshift.Spec

open RangeObjects

/-- Element `i` of each of the ranges has the value given by row `i`. -/
def TuplesAre {V : Type} (rs : List (Rng Nat)) (m : Mem V) (rows : List (List V)) : Prop :=
  AllLength rs rows.length ∧
  ∀ (i : Nat) (row : List V), rows[i]? = some row → List.Forall₂ (fun r v => ∃ l, r.elems[i]? = some l ∧ m l = v) rs row

end Makeshift.Spec
