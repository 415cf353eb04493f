import Mathlib.Data.List.Forall2
import Verif.Model.TupleAlgo

/-! Specification vocabulary for tuple algorithms.  Only the data types of the model (`TArg`, `TVal`, `Func`) are used. -/

namespace Makeshift.Spec

variable {α β V S : Type}

/-- What call number `i` of a functor receives for an argument. -/
inductive ReceivesAt (i : Nat) : TArg α → TVal α → Prop
  | tuple {l : List α} {a : α} : l[i]? = some a → ReceivesAt i (.tuple l) (.elem a)
  | rangeIndex : ReceivesAt i .rangeIndex (.index i)
  | tupleIndex : ReceivesAt i .tupleIndex (.indexConstant i)

/-- `calls` lists the functor arguments for every index in ascending order. -/
def CallArgs (args : List (TArg α)) (calls : List (List (TVal α))) : Prop :=
  ∀ i vs, calls[i]? = some vs → List.Forall₂ (ReceivesAt i) args vs

/-- All tuple arguments have `n` elements. -/
def AllSize (n : Nat) (args : List (TArg α)) : Prop := ∀ l, TArg.tuple l ∈ args → l.length = n

/-- There is a tuple argument. -/
def HasTuple (args : List (TArg α)) : Prop := ∃ l, TArg.tuple l ∈ args

/-- The functor is called for each argument list, from left to right. -/
def mapCalls (func : Func α β S) : List (List (TVal α)) → S → List β × S
  | [], s => ([], s)
  | c :: cs, s => ((func c s).1 :: (mapCalls func cs (func c s).2).1, (mapCalls func cs (func c s).2).2)

/-- The elements up to and including the first one which satisfies `p`. -/
def throughFirst {γ : Type} (p : γ → Bool) : List γ → List γ
  | [] => []
  | c :: cs => if p c then [c] else c :: throughFirst p cs

/-- `lhs` precedes `rhs` lexicographically: at the first position where they differ, `lhs` has the smaller element. -/
def LexLt (lt : α → α → Bool) (lhs rhs : List α) : Prop :=
  ∃ (k : Nat) (a b : α), lhs[k]? = some a ∧ rhs[k]? = some b ∧ lt a b = true ∧
    ∀ j < k, ∀ (x y : α), lhs[j]? = some x → rhs[j]? = some y → lt x y = false ∧ lt y x = false

end Makeshift.Spec
