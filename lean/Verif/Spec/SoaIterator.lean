import Verif.Model.SoaIterator
import Verif.Spec.SoaSpan

/-! Specification vocabulary for iterators of `soa_span`. -/

namespace Makeshift.Spec.Soa

open Makeshift.Soa

/-- How far an operation moves the iterator. -/
def displacement : ItOp → Int
  | .preInc => 1
  | .postInc => 1
  | .preDec => -1
  | .postDec => -1
  | .addAssign n => n
  | .plus n => n
  | .plusLeft n => n
  | .minus n => -n

/-- The operation yields the old position. -/
def isPostfix : ItOp → Bool
  | .postInc => true
  | .postDec => true
  | _ => false

/-- The position after a sequence of operations. -/
def position (p : Int) : List ItOp → Int
  | [] => p
  | op :: ops => position (p + displacement op) ops

/-- The positions which the expressions designate. -/
def results (p : Int) : List ItOp → List Int
  | [] => []
  | op :: ops => (if isPostfix op then p else p + displacement op) :: results (p + displacement op) ops

/-- Every position on the way is between `0` and `n`. -/
def Within (n : Nat) (p : Int) (ops : List ItOp) : Prop := ∀ k ≤ ops.length, 0 ≤ position p (ops.take k) ∧ position p (ops.take k) ≤ n

/-- The expressions which C++20 requires of a `std::random_access_iterator` ([iterator.concept.random.access] and the concepts it
subsumes), as far as they concern functions of the iterator type. -/
def requiredFunctions : List ItFunction :=
  [.defaultCtor, .copyCtor, .copyAssign, .deref, .preInc, .postInc, .eq, .ne, .preDec, .postDec, .lt, .gt, .le, .ge, .difference,
    .addAssign, .plus, .plusLeft, .subAssign, .minus, .subscript]

end Makeshift.Spec.Soa
