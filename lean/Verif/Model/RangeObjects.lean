import Verif.Model.Zip

/-!
# Range algorithms on objects, with functors which have effects

Model of algorithm.hpp:90-151, 164-203, 214-304 for functors with arbitrary effects.  The elements of the ranges are objects, named by
their addresses; two ranges may share objects.  A functor receives references to the elements (`zip_iterator_leaf::_deref` returns
`reference`, detail/zip.hpp:336-407, and `apply` passes it on, detail/algorithm.hpp:257-261) and the indices, and transforms the state
`M` of the program: the contents of all objects, its own state, and everything else.  It may return, throw, terminate the program, or
have undefined behaviour.  The loops are those of Model/Zip.lean; the state of a loop is the state of the program and the local variable
`result` of the algorithm, which takes the exceptional outcome of the functor when it leaves the loop.
-/

namespace Makeshift.RangeObjects

variable {M V B : Type}

/-- A call of a functor. -/
abbrev Fn (M B : Type) := List (Arg Nat) → M → Outcome B × M

/-- The outcome of an algorithm: rejected by the compiler, not ended after the given number of rounds, or ended in a state of the
program. -/
inductive Res (M B : Type) where
  | illFormed
  | unfinished
  | done (m : M) (out : Outcome B)
  deriving DecidableEq

/-- The end of an algorithm: if the loop has ended regularly or by `return` or by an exceptional outcome of the functor, the local
variable says which; if a precondition of the zip iterators failed, that is the outcome. -/
def finish : Result (M × Outcome B) → Res M B
  | .illFormed => .illFormed
  | .unfinished => .unfinished
  | .done s (.ok ()) => .done s.1 s.2
  | .done s (.throw e) => .done s.1 (.throw e)
  | .done s .failFast => .done s.1 .failFast
  | .done s .ub => .done s.1 .ub

/-- Leaving a function by the exceptional outcome of a call. -/
def leave (o : Outcome B) (m : M) : (M × Outcome B) × Bool := ((m, o), false)

/-- algorithm.hpp:99-102, one round of `range_for`. -/
def forBody (func : Fn M Unit) (s : M × Outcome Unit) (args : List (Arg Nat)) : (M × Outcome Unit) × Bool :=
  match func args s.1 with
  | (.ok (), m) => ((m, s.2), true)
  | (.throw e, m) => leave (.throw e) m
  | (.failFast, m) => leave .failFast m
  | (.ub, m) => leave .ub m

/-- algorithm.hpp:90-103 `range_for`. -/
def rangeFor (func : Fn M Unit) (rs : List (Rng Nat)) (fuel : Nat) (m : M) : Res M Unit :=
  finish (zipAlgorithm rs (forBody func) fuel (m, .ok ()))

/-- What a reducer returns: a new value, or a reference to its first argument - the variable `result` -, which now has the given value.
(A reference to some other object is a new value.) -/
inductive Returned (V : Type) where
  | value (v : V)
  | lvalueOfFirst (v : V)
  | rvalueOfFirst (v : V)

/-- `result = <what the reducer returned>`.  Assigning an object to itself as an lvalue leaves it as it is; as an rvalue, it leaves it
with the value `selfMove v` (for class types of the standard library valid but unspecified, [lib.types.movedfrom]). -/
def assignResult (selfMove : V → V) : Returned V → V
  | .value v => v
  | .lvalueOfFirst v => v
  | .rvalueOfFirst v => selfMove v

/-- algorithm.hpp:174-177, one round of `range_transform_reduce`: `result = reduce(std::move(result), it.apply(transform))`. -/
def reduceBody (selfMove : V → V) (reduce : V → B → M → Outcome (Returned V) × M) (transform : Fn M B) (s : M × Outcome V)
    (args : List (Arg Nat)) : (M × Outcome V) × Bool :=
  match s.2 with
  | .ok result =>
    match transform args s.1 with
    | (.ok b, m) =>
      match reduce result b m with
      | (.ok r, m') => ((m', .ok (assignResult selfMove r)), true)
      | (.throw e, m') => leave (.throw e) m'
      | (.failFast, m') => leave .failFast m'
      | (.ub, m') => leave .ub m'
    | (.throw e, m) => leave (.throw e) m
    | (.failFast, m) => leave .failFast m
    | (.ub, m) => leave .ub m
  | o => (((s.1, o)), false)                                   -- not reached: the loop has ended

/-- algorithm.hpp:164-179 `range_transform_reduce`; the initial value has been copied or moved into `result` (line 169). -/
def rangeTransformReduce (selfMove : V → V) (initialValue : V) (reduce : V → B → M → Outcome (Returned V) × M) (transform : Fn M B)
    (rs : List (Rng Nat)) (fuel : Nat) (m : M) : Res M V :=
  finish (zipAlgorithm rs (reduceBody selfMove reduce transform) fuel (m, .ok initialValue))

/-- algorithm.hpp:191-203 `range_reduce`: a range-based `for` loop; the reducer receives the elements themselves. -/
def rangeReduce (selfMove : V → V) (reduce : V → Nat → M → Outcome (Returned V) × M) : V → List Nat → M → Outcome V × M
  | result, [], m => (.ok result, m)
  | result, elem :: range, m =>
    match reduce result elem m with
    | (.ok r, m') => rangeReduce selfMove reduce (assignResult selfMove r) range m'
    | (.throw e, m') => (.throw e, m')
    | (.failFast, m') => (.failFast, m')
    | (.ub, m') => (.ub, m')

/-- algorithm.hpp:223-227, one round of `range_count_if`; the counter does not overflow. -/
def countBody (predicate : Fn M Bool) (s : M × Outcome Nat) (args : List (Arg Nat)) : (M × Outcome Nat) × Bool :=
  match s.2 with
  | .ok result =>
    match predicate args s.1 with
    | (.ok b, m) => ((m, .ok (if b then result + 1 else result)), true)
    | (.throw e, m) => leave (.throw e) m
    | (.failFast, m) => leave .failFast m
    | (.ub, m) => leave .ub m
  | o => ((s.1, o), false)                                     -- not reached: the loop has ended

/-- algorithm.hpp:214-229 `range_count_if`. -/
def rangeCountIf (predicate : Fn M Bool) (rs : List (Rng Nat)) (fuel : Nat) (m : M) : Res M Nat :=
  finish (zipAlgorithm rs (countBody predicate) fuel (m, .ok 0))

/-- algorithm.hpp:249-252, 274-277, 299-302: `if (it.apply(predicate) == stop) return hit;`. -/
def searchBody (stop hit : Bool) (predicate : Fn M Bool) (s : M × Outcome Bool) (args : List (Arg Nat)) :
    (M × Outcome Bool) × Bool :=
  match predicate args s.1 with
  | (.ok b, m) => if b == stop then ((m, .ok hit), false) else ((m, s.2), true)
  | (.throw e, m) => leave (.throw e) m
  | (.failFast, m) => leave .failFast m
  | (.ub, m) => leave .ub m

/-- algorithm.hpp:240-254 `range_all_of`. -/
def rangeAllOf (predicate : Fn M Bool) (rs : List (Rng Nat)) (fuel : Nat) (m : M) : Res M Bool :=
  finish (zipAlgorithm rs (searchBody false false predicate) fuel (m, .ok true))

/-- algorithm.hpp:265-279 `range_any_of`. -/
def rangeAnyOf (predicate : Fn M Bool) (rs : List (Rng Nat)) (fuel : Nat) (m : M) : Res M Bool :=
  finish (zipAlgorithm rs (searchBody true true predicate) fuel (m, .ok false))

/-- algorithm.hpp:290-304 `range_none_of`. -/
def rangeNoneOf (predicate : Fn M Bool) (rs : List (Rng Nat)) (fuel : Nat) (m : M) : Res M Bool :=
  finish (zipAlgorithm rs (searchBody true false predicate) fuel (m, .ok true))

/-- The contents of all objects. -/
abbrev Mem (V : Type) := Nat → V

/-- Assigning to an object. -/
def Mem.store (m : Mem V) (loc : Nat) (v : V) : Mem V := fun l => if l = loc then v else m l

/-- algorithm.hpp:109-119 `range_iota` on the objects of a range: `*it = value++`, where the increment takes place before the
assignment.  Both may be exceptional. -/
def rangeIota (inc : V → Outcome V) : List Nat → V → Mem V → Outcome Unit × Mem V
  | [], _, m => (.ok (), m)
  | loc :: range, value, m =>
    match inc value with
    | .ok next => rangeIota inc range next (m.store loc value)
    | .throw e => (.throw e, m)
    | .failFast => (.failFast, m)
    | .ub => (.ub, m)

/-- algorithm.hpp:125-135 `range_fill`: `*it = value`, where `value` is a reference, possibly to an element of the range. -/
def rangeFill (value : Nat) : List Nat → Mem V → Mem V
  | [], m => m
  | loc :: range, m => rangeFill value range (m.store loc (m value))

/-- algorithm.hpp:141-151 `range_generate`: `*it = generate()`; the generator may have effects, read and write the range, and throw. -/
def rangeGenerate {S : Type} (generate : Mem V × S → Outcome V × (Mem V × S)) : List Nat → Mem V × S → Outcome Unit × (Mem V × S)
  | [], m => (.ok (), m)
  | loc :: range, m =>
    match generate m with
    | (.ok v, m') => rangeGenerate generate range (m'.1.store loc v, m'.2)
    | (.throw e, m') => (.throw e, m')
    | (.failFast, m') => (.failFast, m')
    | (.ub, m') => (.ub, m')

end Makeshift.RangeObjects
