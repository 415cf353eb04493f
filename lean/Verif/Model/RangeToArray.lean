import Verif.Outcome

/-!
# `constval_range_to_array`

Model of constval.hpp lines 261-277 and detail/constval.hpp lines 316-326 (C++20).

The functor is called twice: once for the size, which initialises a `constexpr` variable and is a constant expression, and once for the
elements, which is evaluated like the surrounding expression.  A functor can tell the difference (`std::is_constant_evaluated()`).  Calls of the
projector are part of the functor here.
-/

namespace Makeshift.RangeToArray

/-- How an expression is evaluated. -/
inductive Ctx where
  | constant
  | runtime
  deriving DecidableEq, Repr

/-- The functor: the elements of the range it returns.  `none`: the expression is not a constant expression. -/
structure Functor (α : Type) where
  constant : Option (List α)
  runtime : List α

/-- `ProjT{ }(C{ }())` evaluated in a context; `none`: ill-formed. -/
def Functor.call {α : Type} (f : Functor α) : Ctx → Option (List α)
  | .constant => f.constant
  | .runtime => some f.runtime

/-- `std::array<T, N>{ }` (detail/constval.hpp:323), where `init` is a value-initialised element; `none`: ill-formed, there is no default
constructor. -/
def newArray {α : Type} (init : Option α) : Nat → Option (List α)
  | 0 => some []
  | n + 1 => init.map fun x => List.replicate (n + 1) x

/-- `std::ranges::copy(range, result.begin())` (detail/constval.hpp:324); writing past the end is undefined. -/
def copyInto {α : Type} : List α → List α → Outcome (List α)
  | dst, [] => .ok dst
  | [], _ :: _ => .ub
  | _ :: dst, x :: src => (copyInto dst src).bind fun dst => .ok (x :: dst)

/-- detail/constval.hpp:317-326 `constval_range_to_array_impl<N>`. -/
def impl {α : Type} (init : Option α) (n : Nat) (range : List α) : Option (Outcome (List α)) :=
  (newArray init n).map fun result => copyInto result range

/-- constval.hpp:270-277. -/
def constvalRangeToArray {α : Type} (init : Option α) (f : Functor α) (ctx : Ctx) : Option (Outcome (List α)) :=
  (f.call .constant).bind fun sized => (f.call ctx).bind fun range => impl init sized.length range

end Makeshift.RangeToArray
