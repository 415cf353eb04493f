import Verif.Model.IndexIterator

/-! Specification vocabulary for `index_iterator`. -/

namespace Makeshift.Spec.IndexIterator

open Makeshift.IndexIt

/-- How far an operation moves the iterator. -/
def shift : Move → Int
  | .preInc | .postInc => 1
  | .preDec | .postDec => -1
  | .addAssign n | .plus n | .plusLeft n => n
  | .subAssign n | .minus n => -n

/-- The operation yields the old position. -/
def yieldsOld : Move → Bool
  | .postInc | .postDec => true
  | _ => false

/-- The positions reached one after another. -/
def path (p : Int) : List Move → List Int
  | [] => []
  | op :: ops => (p + shift op) :: path (p + shift op) ops

/-- The positions which the expressions designate. -/
def yielded (p : Int) : List Move → List Int
  | [] => []
  | op :: ops => (if yieldsOld op then p else p + shift op) :: yielded (p + shift op) ops

/-- A value of type `std::ptrdiff_t`. -/
def Representable (x : Int) : Prop := -2 ^ 63 ≤ x ∧ x ≤ 2 ^ 63 - 1

instance (x : Int) : Decidable (Representable x) := by unfold Representable; infer_instance

/-- The expressions which C++20 requires of a `std::random_access_iterator` ([iterator.concept.random.access] and the concepts it
subsumes), as far as they concern functions of the iterator type, and whether the iterator in the expression is `const`. -/
def required : List (Function × Bool) :=
  [(.defaultCtor, false), (.copyCtor, true), (.copyAssign, false), (.deref, true), (.preInc, false), (.postInc, false), (.eq, true), (.ne, true),
    (.preDec, false), (.postDec, false), (.lt, true), (.gt, true), (.le, true), (.ge, true), (.difference, true), (.addAssign, false),
    (.plus, true), (.plusLeft, true), (.subAssign, false), (.minus, true), (.subscript, true)]

end Makeshift.Spec.IndexIterator
