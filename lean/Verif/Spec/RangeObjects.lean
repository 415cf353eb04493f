import Verif.Outcome

/-! What it means to call functors with effects one after the other.  `M` is the state of the program. -/

namespace Makeshift.Spec

variable {M A B V : Type}

/-- First the one, then the other; if the first does not return regularly, its outcome is the outcome. -/
def andThen (x : M → Outcome A × M) (k : A → M → Outcome B × M) (m : M) : Outcome B × M :=
  match x m with
  | (.ok a, m') => k a m'
  | (.throw e, m') => (.throw e, m')
  | (.failFast, m') => (.failFast, m')
  | (.ub, m') => (.ub, m')

/-- Calling a functor with each of some arguments, in order. -/
def callEach (func : A → M → Outcome Unit × M) : List A → M → Outcome Unit × M
  | [], m => (.ok (), m)
  | a :: l, m => andThen (func a) (fun _ => callEach func l) m

/-- Folding: `step` computes the next value of an accumulator. -/
def foldEach (step : V → A → M → Outcome V × M) : V → List A → M → Outcome V × M
  | v, [], m => (.ok v, m)
  | v, a :: l, m => andThen (step v a) (fun v' => foldEach step v' l) m

/-- Counting the calls which return `true`. -/
def countEach (pred : A → M → Outcome Bool × M) : List A → M → Outcome Nat × M
  | [], m => (.ok 0, m)
  | a :: l, m => andThen (pred a) (fun b => andThen (countEach pred l) (fun k m' => (.ok (b.toNat + k), m'))) m

/-- Calling a predicate until it returns `stop`; whether it did. -/
def anyReturns (stop : Bool) (pred : A → M → Outcome Bool × M) : List A → M → Outcome Bool × M
  | [], m => (.ok false, m)
  | a :: l, m => andThen (pred a) (fun b => if b = stop then fun m' => (.ok true, m') else anyReturns stop pred l) m

end Makeshift.Spec
