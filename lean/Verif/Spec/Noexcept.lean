import Verif.Outcome

/-! Specification vocabulary for exceptions: what happens if every exception reaches the caller. -/

namespace Makeshift.Spec

variable {M A B : Type}

/-- An outcome which is not a regular return, of a call of any type. -/
inductive Irregular : Outcome A → Outcome B → Prop
  | throw (e) : Irregular (.throw e) (.throw e)
  | failFast : Irregular .failFast .failFast
  | ub : Irregular .ub .ub

/-- Evaluating expressions one after the other in state `m` yields the outcome `o` in state `m'`: the results, or whatever the first one
which does not return regularly has come to; those after it are not evaluated. -/
inductive Evaluates : List (M → Outcome B × M) → M → Outcome (List B) → M → Prop
  | nil (m) : Evaluates [] m (.ok []) m
  | step {a as m b m' bs m''} : a m = (.ok b, m') → Evaluates as m' (.ok bs) m'' → Evaluates (a :: as) m (.ok (b :: bs)) m''
  | stop {a as m o m' o'} : a m = (o, m') → Irregular o o' → Evaluates (a :: as) m o' m'
  | later {a as m b m' o m'' o'} : a m = (.ok b, m') → Evaluates as m' o m'' → Irregular o o' → Evaluates (a :: as) m o' m''

/-- Evaluating the arguments `gets` of a call of `func` one after the other and then the call. -/
inductive EvaluatesCall (func : List A → M → Outcome B × M) (gets : List (M → Outcome A × M)) : M → Outcome B → M → Prop
  | call {m xs m'} : Evaluates gets m (.ok xs) m' → EvaluatesCall func gets m (func xs m').1 (func xs m').2
  | stop {m o m' o'} : Evaluates gets m o m' → Irregular o o' → EvaluatesCall func gets m o' m'

/-- The call does not throw, whatever the state. -/
def NeverThrows (a : M → Outcome B × M) : Prop := ∀ m e, (a m).1 ≠ .throw e

end Makeshift.Spec
