import Mathlib.Data.List.Forall2
import Verif.Model.Constval

/-! Specification vocabulary for constvals made of constvals. -/

namespace Makeshift.Spec

/-- The constval type which normalisation assigns to a value of scalars, arrays and tuples: it depends on nothing but the value. -/
inductive CanonicalOf : Val → CT → Prop
  | scalar (ty : Nat) (v : Int) : CanonicalOf (.scalar ty v) (.integralConstant ty v)
  | scalarArray (ty : Nat) (xs : List Int) : CanonicalOf (.array true ty (xs.map (.scalar ty))) (.arrayConstant ty xs)
  | array (ty : Nat) {vs : List Val} {cs : List CT} : List.Forall₂ CanonicalOf vs cs →
      CanonicalOf (.array false ty vs) (.arrayConstantRef false ty cs)
  | tuple {vs : List Val} {cs : List CT} : List.Forall₂ CanonicalOf vs cs → CanonicalOf (.tuple vs) (.tupleConstant cs)

/-- All values have the same type, the given one: scalars of type `ty`, or values of a type named `ty` which is not scalar. -/
inductive AllOfType (name : Val → Nat) : Bool → Nat → List Val → Prop
  | scalars (ty : Nat) (xs : List Int) : AllOfType name true ty (xs.map (.scalar ty))
  | others (ty : Nat) (vs : List Val) : (∀ v ∈ vs, name v = ty ∧ ∀ ty' x, v ≠ .scalar ty' x) → AllOfType name false ty vs

end Makeshift.Spec
