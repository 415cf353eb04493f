import Verif.Model.YCombinator

/-! # Specification vocabulary for recursion -/

namespace Makeshift.Spec

open Makeshift.YComb

variable {X Y S : Type}

/-- Meaning of the recursive function `rec f(x) = func(f, x)`, where `f` refers to the very same functor object: `Runs func p s y s'`
if the body `p` started in state `s` returns `y` and leaves the state `s'`. -/
inductive Runs (func : X → Prog X Y S) : Prog X Y S → S → Y → S → Prop
  | ret (y : Y) (s : S) : Runs func (.ret y) s y s
  | call (x : X) (k : Y → Prog X Y S) (s s1 s2 : S) (y1 y2 : Y) :
    Runs func (func x) s y1 s1 → Runs func (k y1) s1 y2 s2 → Runs func (.call x k) s y2 s2
  | get (k : S → Prog X Y S) (s s1 : S) (y : Y) : Runs func (k s) s y s1 → Runs func (.get k) s y s1
  | put (s s' s1 : S) (p : Prog X Y S) (y : Y) : Runs func p s' y s1 → Runs func (.put s' p) s y s1

/-- All calls made by the body have arguments (and functor states) below `b`, whatever results they yield. -/
def CallsBelow (r : X × S → X × S → Prop) (b : X × S) : Prog X Y S → S → Prop
  | .ret _, _ => True
  | .call x k, s => r (x, s) b ∧ ∀ y s', CallsBelow r b (k y) s'
  | .get k, s => CallsBelow r b (k s) s
  | .put s' p, _ => CallsBelow r b p s'

/-- Value of a body if every call `x` yields `f x`, for functors whose state is `s` and never changes. -/
def valueWith (f : X → Y) (s : S) : Prog X Y S → Y
  | .ret y => y
  | .call x k => valueWith f s (k (f x))
  | .get k => valueWith f s (k s)
  | .put _ p => valueWith f s p

end Makeshift.Spec
