import Verif.Model.VariantTransform
import Mathlib.Data.List.Basic

/-! Specification vocabulary for variants. -/

namespace Makeshift.Spec

variable {Ty V : Type}

/-- The variant object holds the value `p.2` in an alternative of type `p.1`. -/
def Active (v : VariantVal Ty V) (p : Ty × V) : Prop := ∃ i, v.active = some (i, p.2) ∧ v.types[i]? = some p.1

/-- `types` picks one alternative from every argument variant. -/
def Combination (types : List Ty) (args : List (List Ty)) : Prop := List.Forall₂ (fun T Ts => T ∈ Ts) types args

/-- Every object is either valueless or holds one of its alternatives (an invariant of `std::variant`). -/
def WellFormed (args : List (VariantVal Ty V)) : Prop := ∀ v ∈ args, v.active ≠ none → ∃ p, Active v p

end Makeshift.Spec
