import Verif.Model.SinglePass
import Mathlib.Data.List.Nodup

/-! Specification vocabulary for single-pass ranges. -/

namespace Makeshift.SinglePass.Spec

open Makeshift.SinglePass

variable {α σ β : Type}

/-- The stream an argument reads from. -/
def source : Leaf α → Option Nat
  | .stream id => some id
  | .counted id _ => some id
  | .multi _ => none

/-- Every argument which reads from a stream has a stream of its own. -/
def Separate (ls : List (Leaf α)) : Prop := (ls.filterMap source).Nodup

/-- A container with the elements of the stream: a list without `size()`, or a list with a `size()` of `n`. -/
def container (w : World α) : Leaf α → Rng α
  | .stream id => ⟨.iteratorPair, .static (-1), w id⟩
  | .counted id n => ⟨.iterator, .dyn n, w id⟩
  | .multi r => r

/-- What an algorithm does apart from reading. -/
def forget : Result (σ × β) → Result σ
  | .illFormed => .illFormed
  | .unfinished => .unfinished
  | .done s o => .done s.1 o

/-- `calls` are the groups of `k` consecutive elements of `xs`, one after the other, without those which do not fill a group. -/
def Groups (k : Nat) (xs : List α) (calls : List (List (Arg α))) : Prop :=
  calls.length = xs.length / k ∧
  ∀ i args, calls[i]? = some args → args.length = k ∧ ∀ j, j < k → args[j]? = (xs[i * k + j]?).map .elem

end Makeshift.SinglePass.Spec

namespace Makeshift.SinglePass.Spec

open Makeshift.SinglePass

variable {α : Type}

/-- A container with the elements of the stream but the second, if the range has a `size()`. -/
def containerSkipping (w : World α) : Leaf α → Rng α
  | .stream id => ⟨.iteratorPair, .static (-1), w id⟩
  | .counted id n => ⟨.iterator, .dyn n, (w id).eraseIdx 1⟩
  | .multi r => r

end Makeshift.SinglePass.Spec

namespace Makeshift.SinglePass.Spec

variable {α σ : Type}

/-- The body of a loop which keeps a record of its calls, and of whether the last one returned. -/
def logged (body : σ → List (Arg α) → σ × Bool) (s : σ × List (List (Arg α)) × Bool) (args : List (Arg α)) : (σ × List (List (Arg α)) × Bool) × Bool :=
  (((body s.1 args).1, s.2.1 ++ [args], !(body s.1 args).2), (body s.1 args).2)

end Makeshift.SinglePass.Spec
