import Verif.Model.TupleAlgo

/-!
# Comparison of `value_tuple`s with user-defined operators

Model of detail/tuple.hpp:69-126 with respect to what Model/TupleAlgo.lean leaves out: which operators of the elements are called, in which order, if they
may have side effects, give different answers at different times, or throw; and the types of the results, if operators of elements return something else than
`bool`.

Simplifications: the operators `&&` and `||` are not overloaded for the results of comparisons, the operator `!` only for the results of `<`.
-/

namespace Makeshift.TupleCompare

/-- A call of an operator of the elements with index `i`: `lhs == rhs`, `lhs != rhs`, `lhs < rhs`, or (if `swapped`) `rhs < lhs`. -/
inductive Call where
  | eq (i : Nat)
  | ne (i : Nat)
  | lt (i : Nat) (swapped : Bool)
  deriving DecidableEq, Repr

/-- What the user's operators answer, given all calls up to and including the present one; the outcome may be an exception. -/
abbrev Answers := List Call → Outcome Bool

/-- detail/tuple.hpp:74, 81 `(... && ...)` over the indices `is`, after the calls `made`: the calls made, and the result. -/
def andLoop (w : Answers) (call : Nat → Call) : List Nat → List Call → List Call × Outcome Bool
  | [], made => (made, .ok true)
  | i :: is, made =>
    match w (made ++ [call i]) with
    | .ok true => andLoop w call is (made ++ [call i])
    | o => (made ++ [call i], o)

/-- detail/tuple.hpp:69-75 `operator ==` for `n` elements. -/
def equal (w : Answers) (n : Nat) : List Call × Outcome Bool := andLoop w .eq (List.range n) []

/-- detail/tuple.hpp:76-82 `operator !=`. -/
def notEqual (w : Answers) (n : Nat) : List Call × Outcome Bool := andLoop w .ne (List.range n) []

/-- detail/tuple.hpp:88-104: the fold over `||` of `apply`, which compares in both directions; `swapped`: the operands are exchanged. -/
def ltLoop (w : Answers) (swapped : Bool) : List Nat → List Call → List Call × Outcome Bool
  | [], made => (made, .ok false)
  | i :: is, made =>
    match w (made ++ [.lt i swapped]) with
    | .ok true => (made ++ [.lt i swapped], .ok true)
    | .ok false =>
      match w (made ++ [.lt i swapped, .lt i !swapped]) with
      | .ok true => (made ++ [.lt i swapped, .lt i !swapped], .ok false)
      | .ok false => ltLoop w swapped is (made ++ [.lt i swapped, .lt i !swapped])
      | o => (made ++ [.lt i swapped, .lt i !swapped], o)
    | o => (made ++ [.lt i swapped], o)

/-- detail/tuple.hpp:83-105 `operator <`. -/
def less (w : Answers) (n : Nat) : List Call × Outcome Bool := ltLoop w false (List.range n) []

/-- detail/tuple.hpp:106-112 `operator >`. -/
def greater (w : Answers) (n : Nat) : List Call × Outcome Bool := ltLoop w true (List.range n) []

/-- detail/tuple.hpp:113-119 `operator <=`. -/
def lessEqual (w : Answers) (n : Nat) : List Call × Outcome Bool := ((greater w n).1, (greater w n).2.mapVal (!·))

/-- detail/tuple.hpp:120-126 `operator >=`. -/
def greaterEqual (w : Answers) (n : Nat) : List Call × Outcome Bool := ((less w n).1, (less w n).2.mapVal (!·))

/-- The type of a comparison of elements: `bool`, or another one, which may be converted contextually to `bool` or not, implicitly from `bool` or not, and whose operator
`!` yields something which can be converted to it or not. -/
inductive ResTy where
  | bool
  | other (id : Nat) (toBool fromBool notOk : Bool)
  deriving DecidableEq, Repr

def ResTy.toBool : ResTy → Bool
  | .bool => true
  | .other _ t _ _ => t

def ResTy.fromBool : ResTy → Bool
  | .bool => true
  | .other _ _ f _ => f

def ResTy.notOk : ResTy → Bool
  | .bool => true
  | .other _ _ _ o => o

/-- A comparison of tuples has a type; or it is not found; or it is found but its definition does not compile. -/
inductive Verdict where
  | type (t : ResTy)
  | notFound
  | broken
  deriving DecidableEq, Repr

/-- The declared return types, detail/tuple.hpp:72, 79, 86, 109, 116, 123, for elements whose comparisons have the types `rs`: with no element, `true`; with one
element, its comparison itself ([expr.prim.fold]). -/
def declared : List ResTy → Option ResTy
  | [] => some .bool
  | [r] => some r
  | rs => if rs.all ResTy.toBool then some .bool else none

/-- `==` and `!=` (lines 69-82): the expression in the definition is the one in the declaration. -/
def equalType (rs : List ResTy) : Verdict :=
  match declared rs with
  | none => .notFound
  | some t => .type t

/-- `<` (lines 83-105): the definition tests every comparison in an `if` and returns a `bool`; `>` (106-112) returns the former. -/
def lessType (rs : List ResTy) : Verdict :=
  match declared rs with
  | none => .notFound
  | some t => if rs.all ResTy.toBool && t.fromBool then .type t else .broken

/-- `<=` and `>=` (lines 113-126): return `!` of the result of `<`. -/
def lessEqualType (rs : List ResTy) : Verdict :=
  match lessType rs with
  | .type t => if t.notOk then .type t else .broken
  | v => v

end Makeshift.TupleCompare
