import Verif.Model.ConstEval

/-! Specification vocabulary for evaluation in constant expressions. -/

namespace Makeshift.Spec

open ConstEval

variable {M B : Type}

/-- What an algorithm should yield in a constant expression, given what it does at run time: the same value and the same effects if it
ends regularly; if it throws, terminates the program or has undefined behaviour, it is not a constant expression. -/
def sameAsRunTime : RangeObjects.Res M B → CRes (M × B)
  | .illFormed => .illFormed
  | .unfinished => .unfinished
  | .done m (.ok b) => .value (m, b)
  | .done _ (.throw _) => .notConstant
  | .done _ .failFast => .notConstant
  | .done _ .ub => .notConstant

/-- Every element of the first `n` is in its place already. -/
def InPlace (idx : List Int) (n : Nat) : Prop := ∀ k < n, idx[k]? = some (k : Int)

end Makeshift.Spec
