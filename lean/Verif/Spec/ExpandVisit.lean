import Verif.Model.ExpandVisit
import Verif.Spec.Search

/-! Specification vocabulary for dispatch. -/

namespace Makeshift.Spec

open ExpandVisit

/-- The values of type `t` can be listed: at least one, no value twice, and no value but the last is the maximum of a type as wide as
`int` (see C16). -/
structure Listable (t : IntTy) (values : List Int) : Prop where
  width : StdWidth t
  inRange : ∀ x ∈ values, t.InRange x
  size : values.length < 2 ^ 63
  max : 32 ≤ t.bits → ∀ x ∈ values.dropLast, x ≠ t.maxVal
  nonempty : values ≠ []
  nodup : values.Nodup

/-- A runtime value that can be looked up: for signed types as wide as `int`, its difference to the first listed value is representable
(see C16). -/
structure Lookup (t : IntTy) (value : Int) (values : List Int) : Prop where
  inRange : t.InRange value
  diff : t.signed = true → 32 ≤ t.bits → ∀ v0, values.head? = some v0 → value - v0 ≤ t.maxVal

/-- Both, for a runtime argument; different values have different constants. -/
structure Valid {Ty : Type} (a : Runtime Ty) : Prop where
  listable : Listable a.rep a.values
  lookup : Lookup a.rep a.value a.values
  injective : ∀ v w, a.const v = a.const w → v = w

end Makeshift.Spec
