import Verif.Outcome

/-!
# `any_source`

Model of `any_source` (experimental/utility.hpp:88-97): of the initialisation of aggregates `S{ any_source{ }, ..., any_source{ } }`, for which
alone such a class is of use, and of the evaluation of its conversion function, the body of which is empty.

Simplifications: aggregates have no base classes; classes have no constructors by which they can be converted from anything (these would
compete with the conversion function); expressions have the type `int`.
-/

namespace Makeshift.AnySource

/-- The type of a member of an aggregate: an object of a scalar or class type (also a class which is an aggregate, and `std::array<>`), which
may or may not be initialised from `{ }`; references to non-`const` lvalues, `const` lvalues, rvalues; arrays. -/
inductive Elem where
  | object (dflt : Bool)
  | lref
  | cref
  | rref
  | array (n : Nat) (e : Elem)
  deriving DecidableEq, Repr

/-- The elements of an array take their initialisers one after the other, the braces being elided ([dcl.init.aggr]). -/
def rep (f : Nat → Option Nat) : Nat → Nat → Option Nat
  | 0, k => some k
  | n + 1, k => (f k).bind (rep f n)

/-- experimental/utility.hpp:88-97 with [dcl.init.aggr], [temp.deduct.conv], [over.match.ref]: a member takes one of the `k` objects of type
`any_source` which are left, and the remaining
number is returned; `none` if the program is ill-formed.  The conversion function returns `T`, never a reference, so that a reference to a
non-`const` lvalue cannot be bound; no conversion function returns an array, so that the braces of an array are elided.  Members for which
no initialiser is left are initialised from `{ }`, which references cannot be. -/
def Elem.takes : Elem → Nat → Option Nat
  | .object d, 0 => if d then some 0 else none
  | .object _, k + 1 => some k
  | .lref, _ => none
  | .cref, 0 => none
  | .cref, k + 1 => some k
  | .rref, 0 => none
  | .rref, k + 1 => some k
  | .array n e, k => rep e.takes n k

/-- [dcl.init.aggr]: the members are initialised in order. -/
def takesAll : List Elem → Nat → Option Nat
  | [], k => some k
  | e :: es, k => (e.takes k).bind (takesAll es)

/-- Whether `S{ any_source{ }, ..., any_source{ } }` with `k` initialisers is well-formed: none may be left over. -/
def accepts (members : List Elem) (k : Nat) : Bool := takesAll members k == some 0

/-- Expressions in which `any_source` is converted to `int`: numbers, `int(any_source{ })`, unevaluated operands (`sizeof`, `noexcept`, `decltype` in a type
trait: the result `n` depends only on the type), sums, and the conditional operator. -/
inductive Expr where
  | num (i : Int)
  | convert
  | unevaluated (n : Int) (e : Expr)
  | add (a b : Expr)
  | cond (c a b : Expr)
  deriving DecidableEq, Repr

/-- experimental/utility.hpp:93-96: evaluation.  The conversion function flows off its end ([stmt.return]: undefined behaviour). -/
def eval : Expr → Outcome Int
  | .num i => .ok i
  | .convert => .ub
  | .unevaluated n _ => .ok n
  | .add a b => (eval a).bind fun x => (eval b).bind fun y => .ok (x + y)
  | .cond c a b => (eval c).bind fun x => if x ≠ 0 then eval a else eval b

end Makeshift.AnySource
