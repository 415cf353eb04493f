/-!
# `y_combinator`

Model of functional.hpp:52-97 and detail/functional.hpp:14-31.  The functor's body for an argument is a program which may call its first
parameter (any number of times, with arguments computed from earlier results), read and write the functor's own state (a `mutable`
lambda), and return.  An exception is a result like any other, as the continuation of a call may handle it.

The number of nested calls is limited by `fuel`; `none` is a recursion that exceeds it.  Argument forwarding is not modelled; nor are
functors that keep a copy of their first parameter beyond the call.
-/

namespace Makeshift.YComb

/-- Body of a functor with arguments `X`, results `Y` and own state `S`. -/
inductive Prog (X Y S : Type) where
  | ret (y : Y)
  | call (x : X) (k : Y → Prog X Y S)
  | get (k : S → Prog X Y S)
  | put (s : S) (p : Prog X Y S)

variable {X Y S : Type}

/-- Execution of a functor's body, on the functor object with state `s`, if `self` is the effect of calling the first parameter.  The
functor object is held by reference throughout (functional.hpp:70, detail/functional.hpp:21), so that its state is passed on. -/
def exec (self : X → S → Option (Y × S)) : Prog X Y S → S → Option (Y × S)
  | .ret y, s => some (y, s)
  | .call x k, s => (self x s).bind fun r => exec self (k r.1) r.2
  | .get k, s => exec self (k s) s
  | .put s' p, _ => exec self p s'

/-- detail/functional.hpp:26-31 `y_combinator_func_ref::operator ()`: calls the functor with itself. -/
def funcRef (func : X → Prog X Y S) : Nat → X → S → Option (Y × S)
  | 0, _, _ => none
  | fuel + 1, x, s => exec (funcRef func fuel) (func x) s

/-- functional.hpp:66-71 `y_combinator::operator ()`: calls the functor with a reference object. -/
def yCombinator (func : X → Prog X Y S) (fuel : Nat) (x : X) (s : S) : Option (Y × S) := exec (funcRef func fuel) (func x) s

/-- A body that does not modify the functor; this is what compiles with a `const` functor. -/
inductive ReadOnly : Prog X Y S → Prop
  | ret (y : Y) : ReadOnly (.ret y)
  | call (x : X) (k : Y → Prog X Y S) : (∀ y, ReadOnly (k y)) → ReadOnly (.call x k)
  | get (k : S → Prog X Y S) : (∀ s, ReadOnly (k s)) → ReadOnly (.get k)

end Makeshift.YComb
