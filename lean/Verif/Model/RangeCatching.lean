import Verif.Model.Ranges

/-!
# Programs on ranges which catch violated contracts

gsl-lite is configured to throw an exception when a contract is violated (`gsl_CONFIG_CONTRACT_VIOLATION_THROWS`, as in test/CMakeLists.txt:26).  `operator []`
of `range<>` is declared `noexcept`, so that an exception thrown by its check calls `std::terminate` ([except.spec]); the constructors of `index_range` are not.
-/

namespace Makeshift.RangeCatching

variable {α β : Type}

/-- How a function ends. -/
inductive Ends (β : Type) where
  | returned (x : β)
  /-- the exception which reports a violated contract leaves the function -/
  | violated
  /-- `std::terminate` has been called -/
  | terminated
  | ub
  deriving DecidableEq, Repr

/-- A call of a function which is not `noexcept`: `failFast` is an exception in this configuration. -/
def call : Outcome α → Ends α
  | .ok x => .returned x
  | .failFast => .violated
  | .throw _ => .violated
  | .ub => .ub

/-- A call of a function which is declared `noexcept`. -/
def callNoexcept (o : Outcome α) : Ends α :=
  match call o with
  | .violated => .terminated
  | r => r

/-- A `range<>` of random access iterators, with or without static extent. -/
inductive AnyRange where
  | dyn (r : DynRange)
  | static (r : StaticRange)

/-- detail/ranges.hpp:60-64 and 88-92 `operator []`, both `noexcept`. -/
def AnyRange.subscript (array : List α) (i : Nat) : AnyRange → Ends α
  | .dyn r => callNoexcept (r.get array i)
  | .static r => callNoexcept (r.get array i)

/-- A program which reads from a range and catches violated contracts (client code). -/
inductive Prog (α β : Type) where
  /-- `return x;` -/
  | done (x : β)
  /-- `throw gsl::fail_fast(...);`, also in a handler -/
  | raise
  /-- `auto v = r[i];` -/
  | subscript (i : Nat) (k : α → Prog α β)
  /-- `index_range(n)` -/
  | indices (n : Int) (k : IndexRange → Prog α β)
  /-- `index_range(first, last)` -/
  | indicesFrom (first last : Int) (k : IndexRange → Prog α β)
  /-- `try { x = body(); } catch (gsl::fail_fast const&) { }`; then `k` with the value, if there is one -/
  | attempt (body : Prog α β) (k : Option β → Prog α β)

/-- A program which reads the elements from position `i` on until an exception is thrown, but no more than `limit`, and returns the position reached
(client code). -/
def probe : (limit i : Nat) → Prog α Nat
  | 0, i => .done i
  | limit + 1, i => .attempt (.subscript i fun _ => .done i) fun
    | some _ => probe limit (i + 1)
    | none => .done i

/-- One call after another. -/
def Ends.andThen {α β : Type} : Ends α → (α → Ends β) → Ends β
  | .returned x, f => f x
  | .violated, _ => .violated
  | .terminated, _ => .terminated
  | .ub, _ => .ub

/-- Running a program for a range over `array` (ranges.hpp:99-108 for the constructors of `index_range`). -/
def run (array : List α) (r : AnyRange) : Prog α β → Ends β
  | .done x => .returned x
  | .raise => .violated
  | .subscript i k => (r.subscript array i).andThen fun v => run array r (k v)
  | .indices n k => (call (indexRange1 n)).andThen fun ix => run array r (k ix)
  | .indicesFrom first last k => (call (indexRange2 first last)).andThen fun ix => run array r (k ix)
  | .attempt body k =>
    match run array r body with
    | .returned x => run array r (k (some x))
    | .violated => run array r (k none)
    | .terminated => .terminated
    | .ub => .ub

end Makeshift.RangeCatching
